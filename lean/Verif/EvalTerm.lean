import Verif.EvalExpr
import Verif.EvalLazy
import Verif.ODLemmas
/-!
# A fragment of the language whose evaluation always finishes

Expressions with all operators, names, calls of LET functions and of registered functions
that finish, and queries over registered plugins and LET queries.  LET definitions may refer
to themselves and to each other in any way.  Left out are sub-queries passed as arguments,
and functions that hand out the scope (see `C22_refuted` for why).
-/
set_option linter.all false

namespace Vfilter.Vql

/-! ## Data -/

mutual
/-- Values without references to the heap, definitions or queries. -/
def Data {F : Type} : V F → Prop
  | .arr l => DataL l
  | .dict d => DataD d
  | .query _ => False
  | .obj _ => False
  | _ => True
def DataL {F : Type} : List (V F) → Prop
  | [] => True
  | v :: l => Data v ∧ DataL l
def DataD {F : Type} : List (Str × V F) → Prop
  | [] => True
  | (_, v) :: l => Data v ∧ DataD l
end

/-- What the fragment is relative to: the functions that finish, the plugins that finish,
and the names under which queries may be stored. -/
structure Frag where
  okFn : Str → Prop
  okPlugin : Str → Prop
  isQ : Str → Prop

/-! ## The fragment -/

/-- A dotted name used in an expression. -/
def Frag.path (G : Frag) : List Str → Prop
  | [] => False
  | c :: r => ¬ G.isQ c ∧ PlainKey c ∧ ∀ k ∈ r, PlainKey k

mutual
def Frag.and (G : Frag) : AndE → Prop
  | .mk l r => G.or l ∧ G.andTs r
def Frag.andTs (G : Frag) : List AndT → Prop
  | [] => True
  | .mk _ t :: r => G.or t ∧ G.andTs r
def Frag.or (G : Frag) : OrE → Prop
  | .mk l r => G.cond l ∧ G.orTs r
def Frag.orTs (G : Frag) : List OrT → Prop
  | [] => True
  | .mk _ t :: r => G.cond t ∧ G.orTs r
def Frag.cond (G : Frag) : Cond → Prop
  | .not c => G.cond c
  | .cmp l none => G.add l
  | .cmp l (some (.mk _ r)) => G.add l ∧ G.add r
def Frag.add (G : Frag) : AddE → Prop
  | .mk l r => G.mul l ∧ G.addTs r
def Frag.addTs (G : Frag) : List AddT → Prop
  | [] => True
  | .mk _ t :: r => G.mul t ∧ G.addTs r
def Frag.mul (G : Frag) : MulE → Prop
  | .mk l r => G.member l ∧ G.mulTs r
def Frag.mulTs (G : Frag) : List MulT → Prop
  | [] => True
  | .mk _ t :: r => G.value t ∧ G.mulTs r
def Frag.member (G : Frag) : Member → Prop
  | .mk l r => G.value l ∧ G.mterms r
def Frag.mterms (G : Frag) : List MTerm → Prop
  | [] => True
  | .range a b :: r => G.optValue a ∧ G.optValue b ∧ G.mterms r
  | .index i :: r => G.value i ∧ G.mterms r
  | .field _ :: r => G.mterms r
  | .empty :: r => G.mterms r
def Frag.optValue (G : Frag) : Option Value → Prop
  | none => True
  | some v => G.value v
def Frag.comma (G : Frag) : Comma → Prop
  | .mk l r => G.and l ∧ G.commaTs r
def Frag.commaTs (G : Frag) : List CommaT → Prop
  | [] => True
  | .mk none :: r => G.commaTs r
  | .mk (some e) :: r => G.and e ∧ G.commaTs r
def Frag.value (G : Frag) : Value → Prop
  | .sym s => G.sym s
  | .sub c => G.comma c
  | _ => True
def Frag.sym (G : Frag) : Sym → Prop
  | .mk _ symbol called params => G.path (trimMinus (splitIdent symbol)) ∧
    (called = true → ∀ c, trimMinus (splitIdent symbol) = [c] → G.okFn c) ∧ G.args params
def Frag.args (G : Frag) : List Arg → Prop
  | [] => True
  | .mk _ (.expr e) :: r => G.and e ∧ G.args r
  | .mk _ (.array c) :: r => G.comma c ∧ G.args r
  | .mk _ .empty :: r => G.args r
  | .mk _ (.select _) :: r => False
end

/-- `FROM` clauses: a plugin that finishes, a LET query, or any name of the fragment. -/
def Frag.plugin (G : Frag) : Plugin → Prop
  | .mk name called args => (∃ c, splitIdent name = [c] ∧ PlainKey c ∧ (called = true → G.okPlugin c)) ∧
    G.args args

def Frag.optComma (G : Frag) : Option Comma → Prop
  | none => True
  | some c => G.comma c

mutual
def Frag.select (G : Frag) : Select → Prop
  | .mk _ _ cols from_ where_ groupBy _ _ => G.cols cols ∧ G.plugin from_ ∧ G.optComma where_ ∧
    G.optComma groupBy
def Frag.cols (G : Frag) : List Col → Prop
  | [] => True
  | c :: r => G.col c ∧ G.cols r
def Frag.col (G : Frag) : Col → Prop
  | .mk .star _ => True
  | .mk (.expr e) _ => G.and e
  | .mk (.select q) _ => G.select q
end

/-! ## Finishing runs -/

section
variable {F S : Type} (G : Frag)

/-- How the state may change: scopes keep their variables, lazy cells and rows keep what
they stand for and only ever store data. -/
structure Ext (st st' : St F S) : Prop where
  len : st.scopes.length ≤ st'.scopes.length
  vars : ∀ i, i < st.scopes.length → (st'.scp i).vars = (st.scp i).vars
  depth : ∀ i, i < st.scopes.length → (st'.scp i).depth = (st.scp i).depth
  lazies : ∀ (i : Nat) (l : LazyCell F), st.lazies[i]? = some l → ∃ l', st'.lazies[i]? = some l' ∧
    l'.expr = l.expr ∧ l'.scope = l.scope ∧
    ((∀ v, l.value = some v → Data v) → ∀ v, l'.value = some v → Data v)
  rows : ∀ (i : Nat) (r : RowCell F), st.rows[i]? = some r → ∃ r', st'.rows[i]? = some r' ∧
    r'.cols = r.cols ∧ ((∀ p ∈ r.cache, Data p.2) → ∀ p ∈ r'.cache, Data p.2)
  fns : (∀ p ∈ st.fns, G.okFn p.2) → ∀ p ∈ st'.fns, G.okFn p.2

variable {G}

theorem Ext.refl (st : St F S) : Ext G st st :=
  ⟨Nat.le_refl _, fun _ _ => rfl, fun _ _ => rfl, fun i l h => ⟨l, h, rfl, rfl, id⟩,
    fun i r h => ⟨r, h, rfl, id⟩, id⟩

theorem Ext.trans {a b c : St F S} (h : Ext G a b) (h' : Ext G b c) : Ext G a c where
  len := Nat.le_trans h.len h'.len
  vars i hi := (h'.vars i (Nat.lt_of_lt_of_le hi h.len)).trans (h.vars i hi)
  depth i hi := (h'.depth i (Nat.lt_of_lt_of_le hi h.len)).trans (h.depth i hi)
  lazies i l hl := by
    obtain ⟨l1, h1, h2, h3, h4⟩ := h.lazies i l hl
    obtain ⟨l2, g1, g2, g3, g4⟩ := h'.lazies i l1 h1
    exact ⟨l2, g1, g2.trans h2, g3.trans h3, fun x => g4 (h4 x)⟩
  rows i l hl := by
    obtain ⟨l1, h1, h2, h3⟩ := h.rows i l hl
    obtain ⟨l2, g1, g2, g3⟩ := h'.rows i l1 h1
    exact ⟨l2, g1, g2.trans h2, fun x => g3 (h3 x)⟩
  fns x := h'.fns (h.fns x)

theorem ext_eq {st st' : St F S} (h1 : st'.scopes = st.scopes) (h2 : st'.lazies = st.lazies)
    (h3 : st'.rows = st.rows) (h4 : st'.fns = st.fns) : Ext G st st' := by
  have hs : ∀ i, st'.scp i = st.scp i := fun i => by simp [St.scp, h1]
  exact ⟨by rw [h1]; exact Nat.le_refl _, fun i _ => by rw [hs], fun i _ => by rw [hs],
    fun i l h => ⟨l, by rw [h2]; exact h, rfl, rfl, id⟩, fun i r h => ⟨r, by rw [h3]; exact h, rfl, id⟩,
    by rw [h4]; exact id⟩

theorem ext_push (st : St F S) (s : Nat) (vs : List (V F)) : Ext G st (st.push s vs) where
  len := by simp
  vars i hi := by rw [push_scp_lt _ _ _ hi]
  depth i hi := by rw [push_scp_lt _ _ _ hi]
  lazies i l h := ⟨l, h, rfl, rfl, id⟩
  rows i r h := ⟨r, h, rfl, id⟩
  fns := id

/-- Variables may be appended to scopes created since. -/
theorem Ext.append {st st1 : St F S} (h : Ext G st st1) {sub : Nat} (hs : st.scopes.length ≤ sub) (v : V F) :
    Ext G st (st1.appendVar sub v) where
  len := by simpa [St.appendVar] using h.len
  vars i hi := by
    have : (st1.appendVar sub v).scp i = st1.scp i := scp_set_ne (Nat.ne_of_gt (Nat.lt_of_lt_of_le hi hs))
    rw [this, h.vars i hi]
  depth i hi := by
    have : (st1.appendVar sub v).scp i = st1.scp i := scp_set_ne (Nat.ne_of_gt (Nat.lt_of_lt_of_le hi hs))
    rw [this, h.depth i hi]
  lazies := h.lazies
  rows := h.rows
  fns := h.fns

/-- Setting an aggregator context changes no variables. -/
theorem ext_setAg (st : St F S) (s c : Nat) : Ext G st (st.setAg s c) where
  len := by simp [St.setAg]
  vars i hi := by
    by_cases h : s = i
    · subst h
      have : (st.setAg s c).scp s = { st.scp s with ag := some c } := scp_set_self hi
      rw [this]
    · have : (st.setAg s c).scp i = st.scp i := scp_set_ne h
      rw [this]
  depth i hi := by
    by_cases h : s = i
    · subst h
      have : (st.setAg s c).scp s = { st.scp s with ag := some c } := scp_set_self hi
      rw [this]
    · have : (st.setAg s c).scp i = st.scp i := scp_set_ne h
      rw [this]
  lazies i l h := ⟨l, h, rfl, rfl, id⟩
  rows i r h := ⟨r, h, rfl, id⟩
  fns := id

variable [FloatOps F] (G) (H : Host F S)

/-- The program finishes, with such a result, changing the state only as allowed. -/
def Ends {α : Type} (p : Prog F S α) (st : St F S) (Q : α → Prop) : Prop :=
  ∃ a st', Runs H p st a st' ∧ Ext G st st' ∧ Q a

variable {G H}

theorem Ends.mono {α : Type} {p : Prog F S α} {st : St F S} {Q R : α → Prop} (h : Ends G H p st Q)
    (hq : ∀ a, Q a → R a) : Ends G H p st R := by
  obtain ⟨a, s1, h1, h2, h3⟩ := h
  exact ⟨a, s1, h1, h2, hq _ h3⟩

theorem ends_pure {α : Type} {a : α} {st : St F S} {Q : α → Prop} (h : Q a) :
    Ends G H (pure a) st Q := ⟨a, st, runs_pure.2 ⟨rfl, rfl⟩, Ext.refl _, h⟩

theorem Ends.bind {α β : Type} {p : Prog F S α} {f : α → Prog F S β} {st : St F S} {Q : α → Prop}
    {R : β → Prop} (h : Ends G H p st Q)
    (hf : ∀ a s1, Ext G st s1 → Q a → Ends G H (f a) s1 R) : Ends G H (p >>= f) st R := by
  obtain ⟨a, s1, h1, h2, h3⟩ := h
  obtain ⟨b, s2, g1, g2, g3⟩ := hf a s1 h2 h3
  exact ⟨b, s2, runs_bind.2 ⟨a, s1, h1, g1⟩, h2.trans g2, g3⟩

theorem ends_prim {p : Prim F S} {β : Type} {f : p.Ret → Prog F S β} {st : St F S} {R : β → Prop}
    (hx : Ext G st (p.step st).2) (h : Ends G H (f (p.step st).1) (p.step st).2 R) :
    Ends G H (prim p >>= f) st R := by
  obtain ⟨b, s2, g1, g2, g3⟩ := h
  exact ⟨b, s2, runs_pb.2 g1, hx.trans g2, g3⟩

theorem ends_call {c : Call F} {st : St F S} {Q : c.Ret → Prop} (h : Ends G H (body H c) st Q) :
    Ends G H (call c) st Q := by
  obtain ⟨b, s2, g1, g2, g3⟩ := h
  exact ⟨b, s2, runs_call.2 g1, g2, g3⟩

/-- A bind whose first part changed the state in its own way. -/
theorem Ends.from {α : Type} {p : Prog F S α} {st s1 : St F S} {Q : α → Prop} (hx : Ext G st s1)
    (h : Ends G H p s1 Q) : ∃ a st', Runs H p s1 a st' ∧ Ext G st st' ∧ Q a := by
  obtain ⟨b, s2, g1, g2, g3⟩ := h
  exact ⟨b, s2, g1, hx.trans g2, g3⟩

theorem ends_foldP {α β : Type} {f : β → α → Prog F S β} {I : β → Prop} :
    ∀ {l : List α} {b : β} {st : St F S}, I b →
    (∀ b a s1, a ∈ l → Ext G st s1 → I b → Ends G H (f b a) s1 I) → Ends G H (foldP f b l) st I
  | [], b, st, hb, _ => ends_pure hb
  | a :: l, b, st, hb, h => by
    refine (h b a st (by simp) (Ext.refl _) hb).bind (fun b1 s1 hx hb1 => ?_)
    exact ends_foldP hb1 (fun b2 a2 s2 ha hx2 => h b2 a2 s2 (by simp [ha]) (hx.trans hx2))

theorem ends_mapP {α β : Type} {f : α → Prog F S β} {I : β → Prop} :
    ∀ {l : List α} {st : St F S},
    (∀ a s1, a ∈ l → Ext G st s1 → Ends G H (f a) s1 I) → Ends G H (mapP f l) st (fun r => ∀ x ∈ r, I x)
  | [], st, _ => ends_pure (by simp)
  | a :: l, st, h => by
    refine (h a st (by simp) (Ext.refl _)).bind (fun b1 s1 hx hb1 => ?_)
    refine (ends_mapP (fun a2 s2 ha hx2 => h a2 s2 (by simp [ha]) (hx.trans hx2))).bind (fun r s2 hx2 hr => ?_)
    refine ends_pure (fun x hm => ?_)
    rcases List.mem_cons.1 hm with rfl | hm
    · exact hb1
    · exact hr x hm

/-! ## Definitions, variables, scopes -/

variable (G H)

/-- A default value that can be computed anywhere. -/
def ArgClosed : Arg → Prop
  | .mk _ (.expr e) => ∀ st s, Ends G H (call (.and e s)) st Data
  | .mk _ (.array c) => ∀ st s, Ends G H (call (.comma c s)) st Data
  | .mk _ .empty => True
  | .mk _ (.select _) => False

/-- A LET expression of the fragment. -/
def SexprOK (e : SExpr) : Prop := G.and e.body ∧ ∀ p ∈ e.defaults, ArgClosed G H p.2
/-- A LET query of the fragment. -/
def SqueryOK (q : SQuery) : Prop := G.select q.query ∧ ∀ p ∈ q.defaults, ArgClosed G H p.2

/-- What a name may stand for: data, a LET expression, and for the names reserved for
queries a LET query or a stored result. -/
def ValOK (k : Str) (v : V F) : Prop :=
  Data v ∨ (∃ e, v = .obj (.sexpr e) ∧ SexprOK G H e) ∨
    (G.isQ k ∧ ((∃ q, v = .obj (.squery q) ∧ SqueryOK G H q) ∨ ∃ rows, v = .query rows ∧ DataL rows))

/-- The functions remembered by syntax nodes finish. -/
def FnsOK (st : St F S) : Prop := ∀ p ∈ st.fns, G.okFn p.2

/-- An answer that is data, if any. -/
def AnsData (r : Option (V F) × Bool) : Prop := Data (r.1.getD .null)

/-- Every column of the row can be computed, now and later. -/
def RowOK (st : St F S) (c : Nat) : Prop :=
  ∀ st1, Ext G st st1 → FnsOK G st1 → ∀ k, Ends G H (call (.rowGet c k)) st1 AnsData

/-- A set of variables. -/
def VarOK (st : St F S) (v : V F) : Prop :=
  Data v ∨ (∃ d : OD (V F), v = .dict d ∧ ∀ p ∈ d, ValOK G H p.1 p.2) ∨ ∃ c, v = .obj (.row c) ∧ RowOK G H st c

/-- A scope of the fragment. -/
structure EnvOK (st : St F S) (s : Nat) : Prop where
  lt : s < st.scopes.length
  vars : ∀ v ∈ (st.scp s).vars, VarOK G H st v
  fns : FnsOK G st

/-- An argument of a registered function: data, or an expression that can be computed. -/
def ArgOK (st : St F S) (v : V F) : Prop :=
  Data v ∨ ∃ c, v = .obj (.lazy c) ∧ ∀ st1, Ext G st st1 → FnsOK G st1 →
    (∀ s, Ends G H (call (.lazyWith c s)) st1 Data) ∧ Ends G H (call (.lazyReduce c)) st1 Data

def KeyData : Key F Obj → Prop
  | .val v => Data v
  | .range _ _ => True

/-- The embedding application finishes on data. -/
structure Total : Prop where
  arith : ∀ op a b s st, Data a → Data b → Ends G H (H.arith op a b s) st Data
  rel : ∀ op a b s st, Data a → Data b → Ends G H (H.rel op a b s) st (fun _ => True)
  truth : ∀ v s st, Data v → Ends G H (H.truth v s) st (fun _ => True)
  toStr : ∀ v s st, Data v → Ends G H (H.toStr v s) st (fun _ => True)
  sort : ∀ k d rows s st, DataL rows → Ends G H (H.sort k d rows s) st DataL
  assocImpl : ∀ a k s p, Data a → KeyData k → H.assocImpl a k s = some p → ∀ st, Ends G H p st AnsData
  assocDefault : ∀ a k s st, Data a → KeyData k → Ends G H (H.assocDefault a k s) st AnsData
  hostMembers : ∀ v s st, Data v → Ends G H (H.hostMembers v s) st (fun _ => True)
  num : ∀ t v, H.num t = some v → Data v
  fn : ∀ f, G.okFn f → ∀ node s args st, (∀ p ∈ args, ArgOK G H st p.2) → FnsOK G st →
    Ends G H (H.fn f node s args) st Data
  plugin : ∀ n, G.okPlugin n → ∀ s args st, DataD args → FnsOK G st → Ends G H (H.plugin n s args) st DataL

variable {G H}

theorem dataL_iff : ∀ {l : List (V F)}, DataL l ↔ ∀ v ∈ l, Data v
  | [] => by simp [DataL]
  | v :: l => by rw [DataL, dataL_iff (l := l)]; simp

theorem dataD_iff : ∀ {l : List (Str × V F)}, DataD l ↔ ∀ p ∈ l, Data p.2
  | [] => by simp [DataD]
  | (k, v) :: l => by rw [DataD, dataD_iff (l := l)]; simp

theorem Data.notQuery {v : V F} (h : Data v) : isQuery v = false := by
  cases v with
  | obj o => simp [Data] at h
  | query r => simp [Data] at h
  | _ => rfl

theorem RowOK.ext {st st1 : St F S} {c : Nat} (h : RowOK G H st c) (hx : Ext G st st1) : RowOK G H st1 c :=
  fun st2 h2 => h st2 (hx.trans h2)

theorem VarOK.ext {st st1 : St F S} {v : V F} (h : VarOK G H st v) (hx : Ext G st st1) : VarOK G H st1 v := by
  rcases h with h | h | ⟨c, rfl, h⟩
  · exact Or.inl h
  · exact Or.inr (Or.inl h)
  · exact Or.inr (Or.inr ⟨c, rfl, h.ext hx⟩)

theorem EnvOK.ext {st st1 : St F S} {s : Nat} (h : EnvOK G H st s) (hx : Ext G st st1) : EnvOK G H st1 s where
  lt := Nat.lt_of_lt_of_le h.lt hx.len
  vars v hv := by
    rw [hx.vars s h.lt] at hv
    exact (h.vars v hv).ext hx
  fns := hx.fns h.fns

theorem EnvOK.push {st : St F S} {s : Nat} (h : EnvOK G H st s) {vs : List (V F)}
    (hv : ∀ v ∈ vs, VarOK G H st v) : EnvOK G H (st.push s vs) st.scopes.length where
  lt := by simp
  vars v hm := by
    rw [push_scp] at hm
    refine VarOK.ext (?_ : VarOK G H st v) (ext_push st s vs)
    rcases List.mem_append.1 hm with hm | hm
    · exact h.vars v hm
    · exact hv v hm
  fns := h.fns

/-- Appending variables to a scope. -/
theorem EnvOK.append {st : St F S} {s : Nat} (h : EnvOK G H st s) {v : V F}
    (hv : VarOK G H st v) (hx : ∀ x, VarOK G H st x → VarOK G H (st.appendVar s v) x) :
    EnvOK G H (st.appendVar s v) s where
  lt := by simpa [St.appendVar] using h.lt
  vars x hm := by
    have : (st.appendVar s v).scp s = { st.scp s with vars := (st.scp s).vars ++ [v] } := scp_set_self h.lt
    rw [this] at hm
    rcases List.mem_append.1 hm with hm | hm
    · exact hx x (h.vars x hm)
    · rw [List.mem_singleton.1 hm]; exact hx v hv
  fns := h.fns

variable (hT : Total G H)
include hT

/-! ## Members of data -/

mutual
theorem ends_assoc_data : ∀ (v : V F) (k : Key F Obj) (s : Nat) (st : St F S), Data v → KeyData k →
    Ends G H (call (.assoc v k s)) st AnsData
  | v, .val (.str k), s, st, hv, hk => by
    refine ends_call ?_
    simp only [body]
    match v, hv with
    | .null, hv => exact ends_pure (by simp [AnsData, Data])
    | .dict d, hv =>
      simp only [assocStrP]
      split
      · exact hT.assocDefault _ _ _ _ hv (by simp [KeyData, Data])
      · cases hg : OD.get d k with
        | none => exact ends_pure (by simp [AnsData, Data])
        | some x =>
          refine ends_pure ?_
          have := OD.mem_of_get hg
          simpa [AnsData] using dataD_iff.1 hv _ this
    | .arr l, hv =>
      simp only [assocStrP, isQuery, Bool.false_eq_true, if_false]
      split
      · rename_i p hp
        exact hT.assocImpl _ _ _ _ hv hk hp _
      · refine Ends.bind (ends_assoc_list l k s st [] hv (by simp [DataL])) (fun r s1 _ hr => ends_pure ?_)
        simpa [AnsData, Data] using hr
    | .bool b, hv | .int b, hv | .float b, hv | .str b, hv | .time b, hv =>
      simp only [assocStrP, isQuery, Bool.false_eq_true, if_false]
      split
      · rename_i p hp
        exact hT.assocImpl _ _ _ _ hv hk hp _
      · exact hT.assocDefault _ _ _ _ hv hk
  | v, .val .null, s, st, hv, hk | v, .val (.bool _), s, st, hv, hk | v, .val (.int _), s, st, hv, hk
  | v, .val (.float _), s, st, hv, hk | v, .val (.time _), s, st, hv, hk | v, .val (.arr _), s, st, hv, hk
  | v, .val (.dict _), s, st, hv, hk | v, .range _ _, s, st, hv, hk => by
    refine ends_call ?_
    simp only [body]
    match v, hv with
    | .null, hv => exact ends_pure (by simp [AnsData, Data])
    | .dict d, hv | .arr d, hv | .bool d, hv | .int d, hv | .float d, hv | .str d, hv | .time d, hv =>
      simp only
      split
      · rename_i p hp
        exact hT.assocImpl _ _ _ _ hv hk hp _
      · exact hT.assocDefault _ _ _ _ hv hk
theorem ends_assoc_list : ∀ (l : List (V F)) (k : Str) (s : Nat) (st : St F S) (acc : List (V F)),
    DataL l → DataL acc → Ends G H (foldP (fun acc x => do
            match ← call (.assoc x (.val (.str k)) s) with
            | (v, true) => pure (acc ++ [v.getD .null])
            | (_, false) => pure acc) acc l) st DataL
  | [], k, s, st, acc, hl, ha => ends_pure ha
  | x :: l, k, s, st, acc, hl, ha => by
    unfold foldP
    refine Ends.bind (Q := DataL) ?_ (fun acc' s1 _ ha' => ends_assoc_list l k s s1 acc' hl.2 ha')
    refine Ends.bind (ends_assoc_data x (.val (.str k)) s st hl.1 (by simp [KeyData, Data])) (fun r s1 _ hr => ?_)
    match r, hr with
    | (v, true), hr =>
      refine ends_pure (dataL_iff.2 (fun y hy => ?_))
      rcases List.mem_append.1 hy with hy | hy
      · exact dataL_iff.1 ha y hy
      · rw [List.mem_singleton.1 hy]; exact hr
    | (_, false), hr => exact ends_pure ha
end

theorem ends_members : ∀ (v : V F) (s : Nat) (st : St F S), Data v →
    Ends G H (call (.members v s)) st (fun _ => True)
  | .null, s, st, hv | .dict _, s, st, hv => by
    refine ends_call ?_
    simp only [body]
    exact ends_pure trivial
  | .arr (x :: l), s, st, hv => by
    refine ends_call ?_
    simp only [body]
    exact ends_members x s st hv.1
  | .arr [], s, st, hv | .bool b, s, st, hv | .int b, s, st, hv | .float b, s, st, hv | .str b, s, st, hv
  | .time b, s, st, hv => by
    refine ends_call ?_
    simp only [body]
    exact hT.hostMembers _ _ _ hv

/-! ## Names -/

omit hT in
theorem valOK_null (k : Str) : ValOK G H k (.null : V F) := Or.inl (by simp [Data])

theorem ends_assoc_var {v : V F} {k : Str} {s : Nat} {st : St F S} (hv : VarOK G H st v) (hf : FnsOK G st)
    (hk : PlainKey k) :
    Ends G H (call (.assoc v (.val (.str k)) s)) st (fun r => ValOK G H k (r.1.getD .null)) := by
  rcases hv with hv | ⟨d, rfl, hd⟩ | ⟨c, rfl, hc⟩
  · exact (ends_assoc_data hT v _ s st hv (by simp [KeyData, Data])).mono (fun a ha => Or.inl ha)
  · refine ⟨_, _, (runs_assoc_dict hk).2 ⟨rfl, rfl⟩, Ext.refl _, ?_⟩
    simp only [dictAns]
    cases hg : OD.get d k with
    | none => exact valOK_null k
    | some x => exact hd _ (OD.mem_of_get hg)
  · obtain ⟨a, s1, h1, h2, h3⟩ := hc st (Ext.refl _) hf k
    exact ⟨a, s1, runs_assoc_row.2 h1, h2, Or.inl h3⟩

theorem ends_resolveLoop {k : Str} {s : Nat} (hk : PlainKey k) : ∀ (l : List (V F)) (d : Option (V F)) (st : St F S),
    (∀ v ∈ l, VarOK G H st v) → FnsOK G st → ValOK G H k (d.getD .null) →
    Ends G H (resolveLoopP s k d l) st (fun r => ValOK G H k (r.1.getD .null))
  | [], d, st, _, _, hd => ends_pure hd
  | v :: l, d, st, hl, hf, hd => by
    unfold resolveLoopP
    refine (ends_assoc_var hT (hl v (by simp)) hf hk).bind (fun r s1 hx hr => ?_)
    match r, hr with
    | (e, true), hr => exact ends_pure hr
    | (e, false), hr =>
      refine ends_resolveLoop hk l _ s1 (fun v hv => (hl v (by simp [hv])).ext hx) (hx.fns hf) ?_
      split
      · exact hr
      · exact hd

theorem ends_resolve {k : Str} {s : Nat} {st : St F S} (hk : PlainKey k) (he : EnvOK G H st s) :
    Ends G H (call (.resolve s k)) st
      (fun r => r.2 = true → (st.scp s).depth < 1000 ∧ ValOK G H k (r.1.getD .null)) := by
  refine ends_call ?_
  simp only [body]
  refine ends_prim (Ext.refl _) ?_
  by_cases ho : overflow (st.scp s).depth = true
  · simp only [Prim.step, ho, if_true]
    exact ends_pure (by simp)
  · simp only [Prim.step, ho, if_false]
    have hd : (st.scp s).depth < 1000 := by
      unfold overflow at ho
      rw [decide_eq_true_eq] at ho
      omega
    refine ends_prim (Ext.refl _) ?_
    refine (ends_resolveLoop hT hk _ none st (fun v hv => he.vars v (List.mem_reverse.1 hv)) he.fns (valOK_null k)).mono ?_
    exact fun a ha _ => ⟨hd, ha⟩

omit hT
/-- A new scope. -/
theorem env_new {base st : St F S} {s sub : Nat} {vs : List (V F)} (he : EnvOK G H base s) (hx : Ext G base st)
    (hs : sub < st.scopes.length) (hv : (st.scp sub).vars = (base.scp s).vars ++ vs)
    (hvs : ∀ v ∈ vs, VarOK G H base v) : EnvOK G H st sub where
  lt := hs
  vars v hm := by
    rw [hv] at hm
    rcases List.mem_append.1 hm with hm | hm
    · exact (he.vars v hm).ext hx
    · exact (hvs v hm).ext hx
  fns := hx.fns he.fns

/-- Scope `s` is fine and at most `m` levels from the limit. -/
structure At (G : Frag) (H : Host F S) (m : Nat) (st : St F S) (s : Nat) : Prop where
  env : EnvOK G H st s
  depth : 1001 ≤ (st.scp s).depth + m

theorem At.ext {m : Nat} {st st1 : St F S} {s : Nat} (h : At G H m st s) (hx : Ext G st st1) : At G H m st1 s :=
  ⟨h.env.ext hx, by rw [hx.depth s h.env.lt]; exact h.depth⟩

/-- All expressions finish `m` levels from the limit. -/
def ExprOK (G : Frag) (H : Host F S) (m : Nat) : Prop :=
  ∀ st s e, At G H m st s → G.and e → Ends G H (call (.and e s)) st Data

/-- The arguments finish `m` levels from the limit. -/
def ArgFact (G : Frag) (H : Host F S) (m : Nat) : Arg → Prop
  | .mk _ (.expr e) => ∀ st s, At G H m st s → Ends G H (call (.and e s)) st Data
  | .mk _ (.array c) => ∀ st s, At G H m st s → Ends G H (call (.comma c s)) st Data
  | .mk _ .empty => True
  | .mk _ (.select _) => False

theorem dataD_set {d : OD (V F)} {k : Str} {v : V F} (hd : DataD d) (hv : Data v) : DataD (OD.set d k v) := by
  rw [dataD_iff] at hd ⊢
  intro p hp
  unfold OD.set at hp
  rcases List.mem_append.1 hp with hp | hp
  · exact hd p ((List.mem_filter.1 hp).1)
  · rw [List.mem_singleton.1 hp]; exact hv

theorem ends_buildArgs {m : Nat} {params : List Arg} (hp : ∀ a ∈ params, ArgFact G H m a) {s : Nat} {st : St F S}
    (hs : At G H m st s) : Ends G H (buildArgsP s params) st DataD := by
  unfold buildArgsP
  refine ends_foldP (by simp [DataD]) (fun acc a s1 ha hx hacc => ?_)
  have hf := hp a ha
  match a, hf with
  | .mk n (.expr e), hf =>
    exact (hf s1 s (hs.ext hx)).bind (fun v s2 _ hv => ends_pure (dataD_set hacc hv))
  | .mk n (.array c), hf =>
    exact (hf s1 s (hs.ext hx)).bind (fun v s2 _ hv => ends_pure (dataD_set hacc hv))
  | .mk n .empty, hf => exact ends_pure (dataD_set hacc (by simp [Data, DataL]))

theorem ends_applyDefaults {defaults : List (Str × Arg)} (hp : ∀ p ∈ defaults, ArgClosed G H p.2) {s : Nat}
    {st : St F S} {args : OD (V F)} (ha : DataD args) : Ends G H (applyDefaultsP s defaults args) st DataD := by
  unfold applyDefaultsP
  refine ends_foldP ha (fun acc d s1 hd hx hacc => ?_)
  have hf := hp d hd
  obtain ⟨k, a⟩ := d
  split
  · exact ends_pure hacc
  · match a, hf with
    | .mk n (.expr e), hf =>
      exact (hf s1 s).bind (fun v s2 _ hv => ends_pure (dataD_set hacc hv))
    | .mk n (.array c), hf =>
      exact (hf s1 s).bind (fun v s2 _ hv => ends_pure (dataD_set hacc hv))
    | .mk n .empty, hf => exact ends_pure (dataD_set hacc (by simp [Data, DataL]))

theorem ends_argsP {m : Nat} {params : List Arg} (hp : ∀ a ∈ params, ArgFact G H m a) {s : Nat} {st : St F S}
    (hs : At G H m st s) (called : Bool) : Ends G H (argsP called s params) st DataD := by
  unfold argsP
  split
  · exact ends_buildArgs hp hs
  · exact ends_pure (by simp [DataD])

theorem ends_negate {neg : Bool} {v : V F} {s : Nat} {st : St F S} (hv : Data v) :
    Ends G H (negateP neg v s) st Data := by
  unfold negateP
  split
  · refine ends_call ?_
    simp only [body]
    match v, hv with
    | .null, hv | .bool _, hv | .int _, hv | .float _, hv | .str _, hv | .time _, hv | .arr _, hv | .dict _, hv =>
      exact ends_pure (by simp [Data])
  · exact ends_pure hv

/-- A state reached from `st` by creating scope `sub` from `s`. -/
structure Sub (G : Frag) (st : St F S) (s : Nat) (st1 : St F S) (sub : Nat) : Prop where
  ext : Ext G st st1
  new : st.scopes.length ≤ sub
  lt : sub < st1.scopes.length
  vars : (st1.scp sub).vars = (st.scp s).vars
  depth : (st1.scp sub).depth = (st.scp s).depth + 1

theorem sub_copy (st : St F S) (s : Nat) :
    Sub G st s ((Prim.copy s : Prim F S).step st).2 ((Prim.copy s : Prim F S).step st).1 where
  ext := by rw [copy_push]; exact ext_push _ _ _
  new := Nat.le_refl _
  lt := by simp [Prim.step]
  vars := by rw [copy_push]; show ((st.push s []).scp st.scopes.length).vars = _; rw [push_scp]; simp
  depth := by rw [copy_push]; show ((st.push s []).scp st.scopes.length).depth = _; rw [push_scp]

theorem Sub.step {st st1 st2 : St F S} {s sub : Nat} (h : Sub G st s st1 sub) (hx : Ext G st1 st2) :
    Sub G st s st2 sub where
  ext := h.ext.trans hx
  new := h.new
  lt := Nat.lt_of_lt_of_le h.lt hx.len
  vars := by rw [hx.vars sub h.lt, h.vars]
  depth := by rw [hx.depth sub h.lt, h.depth]

theorem Sub.env {st st1 : St F S} {s sub : Nat} (h : Sub G st s st1 sub) (he : EnvOK G H st s) :
    EnvOK G H st1 sub := env_new he h.ext h.lt (by rw [h.vars]; simp) (by simp) (vs := [])

/-- After appending variables to the new scope. -/
theorem Sub.append {st st1 : St F S} {s sub : Nat} (h : Sub G st s st1 sub) (he : EnvOK G H st s) {v : V F}
    (hv : VarOK G H st v) : EnvOK G H (st1.appendVar sub v) sub ∧ Ext G st (st1.appendVar sub v) ∧
      ((st1.appendVar sub v).scp sub).depth = (st.scp s).depth + 1 := by
  have hs : (st1.appendVar sub v).scp sub = { st1.scp sub with vars := (st1.scp sub).vars ++ [v] } :=
    scp_set_self h.lt
  refine ⟨env_new he (h.ext.append h.new v) (by simpa [St.appendVar] using h.lt)
    (by rw [hs, h.vars]) (vs := [v]) (by simpa using hv), h.ext.append h.new v, by rw [hs, h.depth]⟩

theorem ext_newAg (st : St F S) (s : Nat) : Ext G st ((Prim.newAg s : Prim F S).step st).2 :=
  (ext_setAg st s st.ctxs.length).trans (ext_eq rfl rfl rfl rfl)

theorem ends_agP {called : Bool} {sub : Nat} {st : St F S} : Ends G H (agP called sub) st (fun _ => True) := by
  unfold agP
  split
  · exact ⟨_, _, runs_prim.2 ⟨rfl, rfl⟩, ext_newAg st sub, trivial⟩
  · exact ends_pure trivial

theorem not_overflow {d : Nat} (h : ¬ overflow d = true) : d < 1000 := by
  unfold overflow at h
  rw [decide_eq_true_eq] at h
  omega

/-- Calling or referring to a LET expression. -/
theorem ends_sexpr {m : Nat} (ih : ∀ m' < m, ExprOK G H m') {e : SExpr} (he : SexprOK G H e) {node : Nat}
    {symbol : Str} {called neg : Bool} {params : List Arg} (hp : ∀ a ∈ params, ArgFact G H m a) {s : Nat}
    {st : St F S} (hs : At G H m st s) :
    Ends G H (symValueP H node symbol called params neg s (.obj (.sexpr e))) st Data := by
  simp only [symValueP]
  have hc := sub_copy (G := G) st s
  generalize hsub : ((Prim.copy s : Prim F S).step st).1 = sub at hc
  generalize hst1 : ((Prim.copy s : Prim F S).step st).2 = st1 at hc
  obtain ⟨_, st2, r2, x2, _⟩ := ends_agP (G := G) (H := H) (called := called) (sub := sub) (st := st1)
  have h2 := hc.step x2
  by_cases ho : overflow (st2.scp sub).depth = true
  · refine ⟨.null, st2, ?_, h2.ext, by simp [Data]⟩
    rw [runs_pb, hsub, hst1]
    refine runs_bind.2 ⟨_, _, r2, ?_⟩
    rw [runs_pb]
    simp only [Prim.step, ho, if_true]
    exact runs_pure.2 ⟨rfl, rfl⟩
  · obtain ⟨args, st3, r3, x3, d3⟩ := ends_argsP hp (hs.ext h2.ext) called
    obtain ⟨args', st4, r4, x4, d4⟩ := ends_applyDefaults he.2 (s := s) (st := st3) d3
    have h4 := (h2.step x3).step x4
    have hd := not_overflow ho
    rw [h2.depth] at hd
    obtain ⟨e5, x5, d5⟩ := h4.append hs.env (v := .dict args') (Or.inl (by simpa [Data] using d4))
    have hm : 1 ≤ m := by have := hs.depth; omega
    obtain ⟨v, st6, r6, x6, d6⟩ := ih (m - 1) (by omega) (st4.appendVar sub (.dict args')) sub e.body
      ⟨e5, by rw [d5]; have := hs.depth; omega⟩ he.1
    obtain ⟨v', st7, r7, x7, d7⟩ := ends_negate (G := G) (H := H) (neg := neg) (s := s) (st := st6) d6
    refine ⟨v', st7, ?_, (x5.trans x6).trans x7, d7⟩
    rw [runs_pb, hsub, hst1]
    refine runs_bind.2 ⟨_, _, r2, ?_⟩
    rw [runs_pb]
    simp only [Prim.step, ho, if_false]
    refine runs_bind.2 ⟨_, _, r3, runs_bind.2 ⟨_, _, r4, ?_⟩⟩
    rw [runs_pb]
    exact runs_bind.2 ⟨_, _, r6, r7⟩

/-! ## Calls of registered functions -/

theorem ends_foldS {α β : Type} {f : β → α → Prog F S β} {I : β → St F S → Prop} :
    ∀ {l : List α} {b : β} {st : St F S}, I b st →
    (∀ b a s1, a ∈ l → Ext G st s1 → I b s1 → ∃ b' s2, Runs H (f b a) s1 b' s2 ∧ Ext G s1 s2 ∧ I b' s2) →
    ∃ b' st', Runs H (foldP f b l) st b' st' ∧ Ext G st st' ∧ I b' st'
  | [], b, st, hb, _ => ⟨b, st, runs_pure.2 ⟨rfl, rfl⟩, Ext.refl _, hb⟩
  | a :: l, b, st, hb, h => by
    obtain ⟨b1, s1, r1, x1, i1⟩ := h b a st (by simp) (Ext.refl _) hb
    obtain ⟨b2, s2, r2, x2, i2⟩ := ends_foldS (l := l) i1
      (fun b2 a2 s2 ha hx2 => h b2 a2 s2 (by simp [ha]) (x1.trans hx2))
    exact ⟨b2, s2, runs_bind.2 ⟨_, _, r1, r2⟩, x1.trans x2, i2⟩

theorem ArgOK.ext {st st1 : St F S} {v : V F} (h : ArgOK G H st v) (hx : Ext G st st1) : ArgOK G H st1 v := by
  rcases h with h | ⟨c, rfl, h⟩
  · exact Or.inl h
  · exact Or.inr ⟨c, rfl, fun s2 x2 => h s2 (hx.trans x2)⟩

theorem ext_newLazy (st : St F S) (e : AndE) (s : Nat) : Ext G st ((Prim.newLazy e s : Prim F S).step st).2 where
  len := Nat.le_refl _
  vars _ _ := rfl
  depth _ _ := rfl
  lazies i l h := by
    refine ⟨l, ?_, rfl, rfl, id⟩
    have hlt : i < st.lazies.length := by
      rcases Nat.lt_or_ge i st.lazies.length with h' | h'
      · exact h'
      · rw [List.getElem?_eq_none h'] at h; cases h
    show (st.lazies ++ [_])[i]? = some l
    rw [List.getElem?_append_left hlt, h]
  rows i r h := ⟨r, h, rfl, id⟩
  fns := id

theorem ext_lazySet (st : St F S) (c : Nat) {v : V F} (hv : Data v) :
    Ext G st ((Prim.lazySet c v : Prim F S).step st).2 where
  len := Nat.le_refl _
  vars _ _ := rfl
  depth _ _ := rfl
  lazies i l h := by
    simp only [Prim.step]
    cases hc : st.lazies[c]? with
    | none => exact ⟨l, h, rfl, rfl, id⟩
    | some l0 =>
      by_cases hi : c = i
      · subst hi
        rw [hc] at h
        cases h
        have hlt : c < st.lazies.length := (List.getElem?_eq_some_iff.1 hc).1
        refine ⟨{ l with value := some v }, by simp [hlt], rfl, rfl, ?_⟩
        intro _ x hx
        cases hx
        exact hv
      · exact ⟨l, by rw [List.getElem?_set_ne hi]; exact h, rfl, rfl, id⟩
  rows i r h := ⟨r, h, rfl, id⟩
  fns := id

/-- A new lazy argument can be computed. -/
theorem argOK_lazy {m : Nat} {e : AndE} (hf : ∀ st s, At G H m st s → Ends G H (call (.and e s)) st Data)
    {st : St F S} {s : Nat} (hs : At G H m st s) :
    ArgOK G H ((Prim.newLazy e s : Prim F S).step st).2 (.obj (.lazy st.lazies.length)) := by
  refine Or.inr ⟨_, rfl, fun st1 x1 f1 => ?_⟩
  have hx := (ext_newLazy (G := G) st e s).trans x1
  have hcell : ((Prim.newLazy e s : Prim F S).step st).2.lazies[st.lazies.length]? = some ⟨e, s, none⟩ := by
    simp [Prim.step]
  obtain ⟨l, h1, h2, h3, h4⟩ := x1.lazies _ _ hcell
  have hval : ∀ v, l.value = some v → Data v := h4 (by simp)
  have hwith : ∀ s', Ends G H (call (.lazyWith st.lazies.length s')) st1 Data := by
    intro s'
    refine ends_call ?_
    simp only [body]
    refine ends_prim (Ext.refl _) ?_
    simp only [Prim.step, h1]
    rw [h2, h3]
    refine (hf st1 s (hs.ext hx)).bind (fun r s2 _ hr => ?_)
    match r, hr with
    | .null, hr | .bool _, hr | .int _, hr | .float _, hr | .str _, hr | .time _, hr | .arr _, hr | .dict _, hr =>
      exact ends_pure hr
  refine ⟨hwith, ?_⟩
  refine ends_call ?_
  simp only [body]
  refine ends_prim (Ext.refl _) ?_
  simp only [Prim.step, h1]
  cases hv : l.value with
  | some v => exact ends_pure (hval v hv)
  | none =>
    refine (hwith l.scope).bind (fun r s2 _ hr => ?_)
    exact ends_prim (ext_lazySet s2 _ hr) (ends_pure hr)

theorem ends_fnArgs {m : Nat} {params : List Arg} (hp : ∀ a ∈ params, ArgFact G H m a) {s : Nat} {st : St F S}
    (hs : At G H m st s) : ∃ args st', Runs H (fnArgsP s params) st args st' ∧ Ext G st st' ∧
      ∀ p ∈ args, ArgOK G H st' p.2 := by
  unfold fnArgsP
  refine ends_foldS (I := fun (args : OD (V F)) st' => ∀ p ∈ args, ArgOK G H st' p.2) (by simp) (fun acc a s1 ha hx hacc => ?_)
  have hset : ∀ {s2 : St F S} {k : Str} {v : V F}, Ext G s1 s2 → ArgOK G H s2 v →
      ∀ p ∈ OD.set acc k v, ArgOK G H s2 p.2 := by
    intro s2 k v x2 hv p hpm
    unfold OD.set at hpm
    rcases List.mem_append.1 hpm with hpm | hpm
    · exact (hacc p (List.mem_filter.1 hpm).1).ext x2
    · rw [List.mem_singleton.1 hpm]; exact hv
  have hf := hp a ha
  match a, hf with
  | .mk n (.expr e), hf =>
    refine ⟨_, _, runs_pb.2 (runs_pure.2 ⟨rfl, rfl⟩), ext_newLazy s1 e s, ?_⟩
    exact hset (ext_newLazy s1 e s) (argOK_lazy hf (hs.ext hx))
  | .mk n (.array c), hf =>
    obtain ⟨v, s2, r2, x2, d2⟩ := hf s1 s (hs.ext hx)
    exact ⟨_, _, runs_bind.2 ⟨_, _, r2, runs_pure.2 ⟨rfl, rfl⟩⟩, x2, hset x2 (Or.inl d2)⟩
  | .mk n .empty, hf =>
    exact ⟨_, _, runs_pure.2 ⟨rfl, rfl⟩, Ext.refl _, hset (Ext.refl _) (Or.inl (by simp [Data, DataL]))⟩

theorem ext_fnOf (st : St F S) (node : Nat) {name : Str} (hn : G.okFn name) (hf : FnsOK G st) :
    Ext G st ((Prim.fnOf node name : Prim F S).step st).2 ∧
      G.okFn ((Prim.fnOf node name : Prim F S).step st).1 := by
  simp only [Prim.step]
  cases hc : st.fns.find? (fun p => p.1 == node) with
  | some p => exact ⟨Ext.refl _, hf p (List.mem_of_find?_eq_some hc)⟩
  | none =>
    refine ⟨⟨Nat.le_refl _, fun _ _ => rfl, fun _ _ => rfl, fun i l h => ⟨l, h, rfl, rfl, id⟩,
      fun i r h => ⟨r, h, rfl, id⟩, fun h p hp => ?_⟩, hn⟩
    rcases List.mem_append.1 hp with hp | hp
    · exact h p hp
    · rw [List.mem_singleton.1 hp]; exact hn

theorem ends_callFunction (hT : Total G H) {m : Nat} {params : List Arg} (hp : ∀ a ∈ params, ArgFact G H m a)
    {node : Nat} {name : Str} (hn : G.okFn name) {s : Nat} {st : St F S} (hs : At G H m st s) :
    Ends G H (callFunctionP H node name params s) st Data := by
  unfold callFunctionP
  obtain ⟨args, s1, r1, x1, a1⟩ := ends_fnArgs hp hs
  obtain ⟨x2, hn2⟩ := ext_fnOf s1 node hn (x1.fns hs.env.fns)
  obtain ⟨v, s3, r3, x3, d3⟩ := hT.fn _ hn2 node s args _ (fun p hp => (a1 p hp).ext x2) (x2.fns (x1.fns hs.env.fns))
  exact ⟨v, s3, runs_bind.2 ⟨_, _, r1, runs_pb.2 r3⟩, (x1.trans x2).trans x3, d3⟩

/-- Members of what a name stands for. -/
theorem ends_assoc_val (hT : Total G H) {m : Nat} (ih : ∀ m' < m, ExprOK G H m') {v : V F} {k : Str} {s : Nat}
    {st : St F S} (hv : Data v ∨ ∃ e, v = .obj (.sexpr e) ∧ SexprOK G H e) (hs : At G H m st s)
    (hd : (st.scp s).depth < 1000) :
    Ends G H (call (.assoc v (.val (.str k)) s)) st AnsData := by
  rcases hv with hv | ⟨e, rfl, he⟩
  · exact ends_assoc_data hT v _ s st hv (by simp [KeyData, Data])
  · refine ends_call ?_
    simp only [body, assocStrP]
    have hc := sub_copy (G := G) st s
    refine ends_prim hc.ext ?_
    have hm : 1 ≤ m := by have := hs.depth; omega
    refine (ih (m - 1) (by omega) _ _ e.body ⟨hc.env hs.env, by rw [hc.depth]; have := hs.depth; omega⟩ he.1).bind
      (fun r s2 _ hr => ?_)
    exact ends_assoc_data hT r _ s s2 hr (by simp [KeyData, Data])

theorem ends_walk_rest (hT : Total G H) {s : Nat} : ∀ (l : List Str) (v : V F) (st : St F S), Data v →
    Ends G H (walkP s false v l) st (fun r => ∀ x, r = some x → Data x)
  | [], v, st, hv => ends_pure (by simpa using hv)
  | k :: l, v, st, hv => by
    unfold walkP
    refine (ends_assoc_data hT v _ s st hv (by simp [KeyData, Data])).bind (fun r s1 _ hr => ?_)
    match r, hr with
    | (_, false), hr =>
      simp only [Bool.false_eq_true, if_false]
      exact ends_pure (by simp)
    | (x, true), hr => exact ends_walk_rest hT l _ s1 hr

/-- A dotted name. -/
theorem ends_walk (hT : Total G H) {m : Nat} (ih : ∀ m' < m, ExprOK G H m') {path : List Str} (hp : G.path path)
    {s : Nat} {st : St F S} (hs : At G H m st s) :
    Ends G H (walkP s true (.obj (.scope s)) path) st
      (fun r => ∀ x, r = some x → Data x ∨ ∃ e, x = .obj (.sexpr e) ∧ SexprOK G H e) := by
  match path, hp with
  | c :: l, ⟨hq, hk, hl⟩ =>
    unfold walkP
    have hr : Ends G H (call (.assoc (.obj (.scope s)) (.val (.str c)) s)) st
      (fun r => r.2 = true → (st.scp s).depth < 1000 ∧ ValOK G H c (r.1.getD .null)) := by
      obtain ⟨a, s1, h1, h2, h3⟩ := ends_resolve hT hk hs.env
      exact ⟨a, s1, runs_assoc_scope.2 h1, h2, h3⟩
    refine hr.bind (fun r s1 x1 hr => ?_)
    match r, hr with
    | (_, false), hr =>
      simp only [if_true]
      exact ends_prim (ext_eq rfl rfl rfl rfl) (ends_pure (by simp))
    | (x, true), hr =>
      obtain ⟨hd, hx⟩ := hr rfl
      have hx' : Data (x.getD .null) ∨ ∃ e, x.getD .null = .obj (.sexpr e) ∧ SexprOK G H e := by
        rcases hx with h | h | ⟨h, _⟩
        · exact Or.inl h
        · exact Or.inr h
        · exact absurd h hq
      match l with
      | [] => exact ends_pure (by simpa using hx')
      | k :: l =>
        unfold walkP
        have hs1 := hs.ext x1
        refine (ends_assoc_val hT ih hx' hs1 (by rw [x1.depth s hs.env.lt]; exact hd)).bind (fun r s2 x2 hr => ?_)
        match r, hr with
        | (_, false), hr =>
          simp only [Bool.false_eq_true, if_false]
          exact ends_pure (by simp)
        | (y, true), hr =>
          exact (ends_walk_rest hT l _ s2 hr).mono (fun a ha x hx => Or.inl (ha x hx))

/-- A symbol whose arguments finish. -/
theorem ends_sym (hT : Total G H) {m : Nat} (ih : ∀ m' < m, ExprOK G H m') {node : Nat} {symbol : Str} {called : Bool}
    {params : List Arg} (hpath : G.path (trimMinus (splitIdent symbol)))
    (hfn : called = true → ∀ c, trimMinus (splitIdent symbol) = [c] → G.okFn c)
    (hp : ∀ a ∈ params, ArgFact G H m a) {s : Nat} {st : St F S} (hs : At G H m st s) :
    Ends G H (call (.sym (.mk node symbol called params) s)) st Data := by
  refine ends_call ?_
  simp only [body, symP]
  have x1 : Ext G st ((Prim.split node : Prim F S).step st).2 := ext_eq rfl rfl rfl rfl
  refine ends_prim x1 ?_
  have hs1 := hs.ext x1
  generalize ((Prim.split node : Prim F S).step st).2 = st1 at hs1
  generalize (((Prim.split node : Prim F S).step st).1 && hasMinus (splitIdent symbol)) = neg
  have hfind : Ends G H (findP H.isFn Obj.fn called (trimMinus (splitIdent symbol)) s) st1
      (fun r => ∀ x, r = some x → (Data x ∨ ∃ e, x = .obj (.sexpr e) ∧ SexprOK G H e) ∨
        (∃ c, x = .obj (.fn c) ∧ G.okFn c ∧ called = true)) := by
    unfold findP
    split
    · rename_i c hc
      split
      · rename_i hreg
        refine ends_pure ?_
        intro x hx
        cases hx
        exact Or.inr ⟨c, rfl, hfn hreg.1 c hc, hreg.1⟩
      · rw [hc] at hpath
        exact (ends_walk hT ih hpath hs1).mono (fun a ha x hx => Or.inl (ha x hx))
    · exact (ends_walk hT ih hpath hs1).mono (fun a ha x hx => Or.inl (ha x hx))
  refine hfind.bind (fun r s2 x2 hr => ?_)
  have hs2 := hs1.ext x2
  cases r with
  | none => exact ends_pure (by simp [Data])
  | some v =>
    rcases hr v rfl with (hv | ⟨e, rfl, he⟩) | ⟨c, rfl, hc, rfl⟩
    · have hq : isQuery v = false := hv.notQuery
      have key : Ends G H (if called = true then do
            prim (.log (bs "ERROR: not a function " ++ symbol)); pure .null
          else negateP neg v s) s2 Data := by
        split
        · exact ends_prim (ext_eq rfl rfl rfl rfl) (ends_pure (by simp [Data]))
        · exact ends_negate hv
      match v, hv, hq, key with
      | .null, hv, hq, key | .bool _, hv, hq, key | .int _, hv, hq, key | .float _, hv, hq, key
      | .str _, hv, hq, key | .time _, hv, hq, key | .arr _, hv, hq, key | .dict _, hv, hq, key =>
        simp only [symValueP, isQuery, Bool.false_eq_true, false_and, if_false]
        exact key
    · exact ends_sexpr ih he hp hs2
    · simp only [symValueP, Bool.true_eq_false, if_false]
      exact (ends_callFunction hT hp hc hs2).bind (fun v s3 _ hv => ends_negate hv)

/-! ## Expressions -/

theorem ends_rel (hT : Total G H) {op : Str} {a b : V F} {s : Nat} {st : St F S} (ha : Data a) (hb : Data b) :
    Ends G H (relP H op a b s) st (fun _ => True) := by
  unfold relP
  (repeat' split)
  · exact hT.rel _ _ _ _ _ ha hb
  · exact hT.rel _ _ _ _ _ ha hb
  · exact hT.rel _ _ _ _ _ ha hb
  · exact (hT.rel _ _ _ _ _ ha hb).bind (fun _ _ _ _ => ends_pure trivial)
  · refine (hT.rel _ _ _ _ _ ha hb).bind (fun _ _ _ _ => ?_)
    split
    · exact ends_pure trivial
    · exact hT.rel _ _ _ _ _ ha hb
  · exact hT.rel _ _ _ _ _ ha hb
  · refine (hT.rel _ _ _ _ _ ha hb).bind (fun _ _ _ _ => ?_)
    split
    · exact ends_pure trivial
    · exact hT.rel _ _ _ _ _ ha hb
  · exact hT.rel _ _ _ _ _ hb ha
  · exact ends_pure trivial

section
variable (hT : Total G H) {m : Nat} (ih : ∀ m' < m, ExprOK G H m')
include hT ih

mutual
theorem ends_and : ∀ (e : AndE), G.and e → ∀ st s, At G H m st s → Ends G H (call (.and e s)) st Data
  | .mk l r, he, st, s, hs => by
    refine ends_call ?_
    simp only [body]
    refine (ends_or l he.1 st s hs).bind (fun v s1 x1 hv => ?_)
    match r, he with
    | [], he => exact ends_pure hv
    | t :: r, he =>
      refine (hT.truth v s s1 hv).bind (fun b s2 x2 _ => ?_)
      split
      · exact ends_pure (by simp [Data])
      · exact ends_andLoop (t :: r) he.2 v hv s2 s ((hs.ext x1).ext x2)
theorem ends_andLoop : ∀ (l : List AndT), G.andTs l → ∀ (v : V F), Data v → ∀ st s, At G H m st s →
    Ends G H (andLoopP H s v l) st Data
  | [], _, v, hv, st, s, hs => ends_pure hv
  | .mk op t :: l, hl, v, hv, st, s, hs => by
    unfold andLoopP
    refine (ends_or t hl.1 st s hs).bind (fun v1 s1 x1 hv1 => ?_)
    refine (hT.truth v1 s s1 hv1).bind (fun b s2 x2 _ => ?_)
    split
    · exact ends_pure (by simp [Data])
    · refine ends_andLoop l hl.2 _ ?_ s2 s ((hs.ext x1).ext x2)
      split
      · exact hv1
      · simp [Data]
theorem ends_or : ∀ (e : OrE), G.or e → ∀ st s, At G H m st s → Ends G H (call (.or e s)) st Data
  | .mk l r, he, st, s, hs => by
    refine ends_call ?_
    simp only [body]
    refine (ends_cond l he.1 st s hs).bind (fun v s1 x1 hv => ?_)
    match r, he with
    | [], he => exact ends_pure hv
    | t :: r, he =>
      refine (hT.truth v s s1 hv).bind (fun b s2 x2 _ => ?_)
      split
      · exact ends_pure hv
      · exact ends_orLoop (t :: r) he.2 v hv s2 s ((hs.ext x1).ext x2)
theorem ends_orLoop : ∀ (l : List OrT), G.orTs l → ∀ (v : V F), Data v → ∀ st s, At G H m st s →
    Ends G H (orLoopP H s v l) st Data
  | [], _, v, hv, st, s, hs => ends_pure hv
  | .mk op t :: l, hl, v, hv, st, s, hs => by
    unfold orLoopP
    refine (ends_cond t hl.1 st s hs).bind (fun v1 s1 x1 hv1 => ?_)
    refine (hT.truth v1 s s1 hv1).bind (fun b s2 x2 _ => ?_)
    split
    · refine ends_pure ?_
      split
      · exact hv1
      · simp [Data]
    · exact ends_orLoop l hl.2 _ hv1 s2 s ((hs.ext x1).ext x2)
theorem ends_cond : ∀ (e : Cond), G.cond e → ∀ st s, At G H m st s → Ends G H (call (.cond e s)) st Data
  | .not c, he, st, s, hs => by
    refine ends_call ?_
    simp only [body]
    refine (ends_cond c he st s hs).bind (fun v s1 x1 hv => ?_)
    exact (hT.truth v s s1 hv).bind (fun b s2 x2 _ => ends_pure (by simp [Data]))
  | .cmp l none, he, st, s, hs => by
    refine ends_call ?_
    simp only [body]
    exact ends_add l he st s hs
  | .cmp l (some (.mk op r)), he, st, s, hs => by
    refine ends_call ?_
    simp only [body]
    refine (ends_add l he.1 st s hs).bind (fun a s1 x1 ha => ?_)
    refine (ends_add r he.2 s1 s (hs.ext x1)).bind (fun b s2 x2 hb => ?_)
    exact (ends_rel hT ha hb).bind (fun _ _ _ _ => ends_pure (by simp [Data]))
theorem ends_add : ∀ (e : AddE), G.add e → ∀ st s, At G H m st s → Ends G H (call (.add e s)) st Data
  | .mk l r, he, st, s, hs => by
    refine ends_call ?_
    simp only [body]
    refine (ends_mul l he.1 st s hs).bind (fun v s1 x1 hv => ?_)
    exact ends_addLoop r he.2 v hv s1 s (hs.ext x1)
theorem ends_addLoop : ∀ (l : List AddT), G.addTs l → ∀ (v : V F), Data v → ∀ st s, At G H m st s →
    Ends G H (foldP (addStepP H s) v l) st Data
  | [], _, v, hv, st, s, hs => ends_pure hv
  | .mk op t :: l, hl, v, hv, st, s, hs => by
    unfold foldP
    refine Ends.bind (Q := Data) ?_ (fun v1 s1 x1 hv1 => ends_addLoop l hl.2 v1 hv1 s1 s (hs.ext x1))
    unfold addStepP
    refine (ends_mul t hl.1 st s hs).bind (fun v1 s1 x1 hv1 => ?_)
    (repeat' split)
    · exact hT.arith _ _ _ _ _ hv hv1
    · exact hT.arith _ _ _ _ _ hv hv1
    · exact ends_pure hv
theorem ends_mul : ∀ (e : MulE), G.mul e → ∀ st s, At G H m st s → Ends G H (call (.mul e s)) st Data
  | .mk l r, he, st, s, hs => by
    refine ends_call ?_
    simp only [body]
    refine (ends_member l he.1 st s hs).bind (fun v s1 x1 hv => ?_)
    exact ends_mulLoop r he.2 v hv s1 s (hs.ext x1)
theorem ends_mulLoop : ∀ (l : List MulT), G.mulTs l → ∀ (v : V F), Data v → ∀ st s, At G H m st s →
    Ends G H (foldP (mulStepP H s) v l) st Data
  | [], _, v, hv, st, s, hs => ends_pure hv
  | .mk op t :: l, hl, v, hv, st, s, hs => by
    unfold foldP
    refine Ends.bind (Q := Data) ?_ (fun v1 s1 x1 hv1 => ends_mulLoop l hl.2 v1 hv1 s1 s (hs.ext x1))
    unfold mulStepP
    refine (ends_value t hl.1 st s hs).bind (fun v1 s1 x1 hv1 => ?_)
    (repeat' split)
    · exact hT.arith _ _ _ _ _ hv hv1
    · exact hT.arith _ _ _ _ _ hv hv1
    · exact ends_pure hv
theorem ends_member : ∀ (e : Member), G.member e → ∀ st s, At G H m st s → Ends G H (call (.member e s)) st Data
  | .mk l r, he, st, s, hs => by
    refine ends_call ?_
    simp only [body]
    refine (ends_value l he.1 st s hs).bind (fun v s1 x1 hv => ?_)
    exact ends_memberLoop r he.2 v hv s1 s (hs.ext x1)
theorem ends_memberLoop : ∀ (l : List MTerm), G.mterms l → ∀ (v : V F), Data v → ∀ st s, At G H m st s →
    Ends G H (memberLoopP s v l) st Data
  | [], _, v, hv, st, s, hs => ends_pure hv
  | .range a b :: l, hl, v, hv, st, s, hs => by
    unfold memberLoopP
    refine (ends_bound a hl.1 st s hs).bind (fun x s1 x1 _ => ?_)
    cases x with
    | none => exact ends_pure (by simp [Data])
    | some x =>
      refine (ends_bound b hl.2.1 s1 s (hs.ext x1)).bind (fun y s2 x2 _ => ?_)
      cases y with
      | none => exact ends_pure (by simp [Data])
      | some y =>
        refine (ends_assoc_data hT v _ s s2 hv (by simp [KeyData])).bind (fun r s3 x3 hr => ?_)
        match r, hr with
        | (_, false), hr => exact ends_pure (by simp [Data])
        | (w, true), hr => exact ends_memberLoop l hl.2.2 _ hr s3 s (((hs.ext x1).ext x2).ext x3)
  | .index i :: l, hl, v, hv, st, s, hs => by
    unfold memberLoopP
    refine (ends_value i hl.1 st s hs).bind (fun k s1 x1 hk => ?_)
    refine (ends_assoc_data hT v (.val k) s s1 hv hk).bind (fun r s3 x3 hr => ?_)
    match r, hr with
    | (_, false), hr => exact ends_pure (by simp [Data])
    | (w, true), hr => exact ends_memberLoop l hl.2 _ hr s3 s ((hs.ext x1).ext x3)
  | .field f :: l, hl, v, hv, st, s, hs => by
    unfold memberLoopP
    refine (ends_assoc_data hT v _ s st hv (by simp [KeyData, Data])).bind (fun r s3 x3 hr => ?_)
    match r, hr with
    | (_, false), hr => exact ends_pure (by simp [Data])
    | (w, true), hr => exact ends_memberLoop l hl _ hr s3 s (hs.ext x3)
  | .empty :: l, hl, v, hv, st, s, hs => by
    unfold memberLoopP
    exact ends_pure (by simp [Data])
theorem ends_bound : ∀ (e : Option Value), G.optValue e → ∀ st s, At G H m st s →
    Ends G H (boundP s e) st (fun _ => True)
  | none, _, st, s, hs => ends_pure trivial
  | some e, he, st, s, hs => by
    unfold boundP
    refine (ends_value e he st s hs).bind (fun v s1 x1 hv => ?_)
    split
    · exact ends_pure trivial
    · exact ends_pure trivial
theorem ends_comma : ∀ (e : Comma), G.comma e → ∀ st s, At G H m st s → Ends G H (call (.comma e s)) st Data
  | .mk l r, he, st, s, hs => by
    refine ends_call ?_
    simp only [body]
    refine (ends_and l he.1 st s hs).bind (fun v s1 x1 hv => ?_)
    match r, he with
    | [], he => exact ends_pure hv
    | t :: r, he => exact ends_commaLoop (t :: r) he.2 [v] (by simp [DataL, hv]) s1 s (hs.ext x1)
theorem ends_commaLoop : ∀ (l : List CommaT), G.commaTs l → ∀ (acc : List (V F)), DataL acc → ∀ st s, At G H m st s →
    Ends G H (commaLoopP s acc l) st Data
  | [], _, acc, ha, st, s, hs => ends_pure (by simpa [Data] using ha)
  | .mk none :: l, _, acc, ha, st, s, hs => ends_pure (by simpa [Data] using ha)
  | .mk (some e) :: l, hl, acc, ha, st, s, hs => by
    unfold commaLoopP
    refine (ends_and e hl.1 st s hs).bind (fun v s1 x1 hv => ?_)
    refine ends_commaLoop l hl.2 _ (dataL_iff.2 (fun y hy => ?_)) s1 s (hs.ext x1)
    rcases List.mem_append.1 hy with hy | hy
    · exact dataL_iff.1 ha y hy
    · rw [List.mem_singleton.1 hy]; exact hv
theorem ends_value : ∀ (e : Value), G.value e → ∀ st s, At G H m st s → Ends G H (call (.value e s)) st Data
  | .sym e, he, st, s, hs => by
    refine ends_call ?_
    simp only [body]
    exact ends_symbol e he st s hs
  | .sub c, he, st, s, hs => by
    refine ends_call ?_
    simp only [body]
    exact ends_comma c he st s hs
  | .str t, he, st, s, hs => by
    refine ends_call ?_
    simp only [body]
    exact ends_pure (by simp [Data])
  | .num t, he, st, s, hs => by
    refine ends_call ?_
    simp only [body]
    split
    · rename_i v hv
      exact ends_pure (hT.num t v hv)
    · exact ends_prim (ext_eq rfl rfl rfl rfl) (ends_pure (by simp [Data]))
  | .bool t, he, st, s, hs => by
    refine ends_call ?_
    simp only [body]
    exact ends_pure (by simp [Data])
  | .null, he, st, s, hs => by
    refine ends_call ?_
    simp only [body]
    exact ends_pure (by simp [Data])
theorem ends_symbol : ∀ (e : Sym), G.sym e → ∀ st s, At G H m st s → Ends G H (call (.sym e s)) st Data
  | .mk node symbol called params, he, st, s, hs => ends_sym hT ih he.1 he.2.1 (argFacts params he.2.2) hs
theorem argFacts : ∀ (l : List Arg), G.args l → ∀ a ∈ l, ArgFact G H m a
  | [], _, a, ha => by cases ha
  | .mk n (.expr e) :: l, hl, a, ha => by
    rcases List.mem_cons.1 ha with rfl | ha
    · exact fun st s hs => ends_and e hl.1 st s hs
    · exact argFacts l hl.2 a ha
  | .mk n (.array c) :: l, hl, a, ha => by
    rcases List.mem_cons.1 ha with rfl | ha
    · exact fun st s hs => ends_comma c hl.1 st s hs
    · exact argFacts l hl.2 a ha
  | .mk n .empty :: l, hl, a, ha => by
    rcases List.mem_cons.1 ha with rfl | ha
    · trivial
    · exact argFacts l hl a ha
  | .mk n (.select _) :: l, hl, a, ha => False.elim hl
end
end

/-- Every expression of the fragment finishes. -/
theorem exprOK (hT : Total G H) : ∀ m, ExprOK G H m := by
  intro m
  induction m using Nat.strongRecOn with
  | _ m ih => exact fun st s e hs he => ends_and hT ih e he st s hs

theorem At.mono {m m' : Nat} {st : St F S} {s : Nat} (h : At G H m st s) (hm : m ≤ m') : At G H m' st s :=
  ⟨h.env, by have := h.depth; omega⟩

/-! ## Rows -/

/-- A column that can be computed `m` levels from the limit. -/
def ColFact (G : Frag) (H : Host F S) (m : Nat) (c : Col) : Prop :=
  ∀ st s, At G H m st s → Ends G H (call (.col c s)) st Data

/-- A column getter that can be computed. -/
def GetterOK (G : Frag) (H : Host F S) (m : Nat) (st : St F S) : Getter F → Prop
  | .const v => Data v
  | .col c _ ns => ColFact G H m c ∧ At G H m st ns

/-- A row whose columns can be computed. -/
def CellOK (G : Frag) (H : Host F S) (m : Nat) (st : St F S) (cell : Nat) : Prop :=
  ∃ r, st.rows[cell]? = some r ∧ (∀ p ∈ r.cache, Data p.2) ∧ ∀ g ∈ r.cols, GetterOK G H m st g.2

theorem GetterOK.ext {m : Nat} {st st1 : St F S} {g : Getter F} (h : GetterOK G H m st g) (hx : Ext G st st1) :
    GetterOK G H m st1 g := by
  cases g with
  | const v => exact h
  | col c n ns => exact ⟨h.1, h.2.ext hx⟩

theorem CellOK.ext {m : Nat} {st st1 : St F S} {cell : Nat} (h : CellOK G H m st cell) (hx : Ext G st st1) :
    CellOK G H m st1 cell := by
  obtain ⟨r, h1, h2, h3⟩ := h
  obtain ⟨r', g1, g2, g3⟩ := hx.rows _ _ h1
  exact ⟨r', g1, g3 h2, by rw [g2]; exact fun g hg => (h3 g hg).ext hx⟩

theorem getter_mem {r : RowCell F} {k : Str} {g : Getter F} (h : r.getter k = some g) : ∃ p ∈ r.cols, p.2 = g := by
  unfold RowCell.getter at h
  cases hf : r.cols.reverse.find? (fun p => decide (p.1 = k)) with
  | none => rw [hf] at h; cases h
  | some p =>
    rw [hf] at h
    simp only [Option.map_some, Option.some.injEq] at h
    exact ⟨p, List.mem_reverse.1 (List.mem_of_find?_eq_some hf), h⟩

theorem ends_getter {m : Nat} {st : St F S} {g : Getter F} (h : GetterOK G H m st g) :
    Ends G H (call (.getter g)) st Data := by
  refine ends_call ?_
  cases g with
  | const v => exact ends_pure h
  | col c n ns =>
    simp only [body]
    have hx : Ext G st ((Prim.eval n ns : Prim F S).step st).2 := ext_eq rfl rfl rfl rfl
    refine ends_prim hx ?_
    refine (h.1 _ ns (h.2.ext hx)).bind (fun v s1 x1 hv => ?_)
    match v, hv with
    | .null, hv | .bool _, hv | .int _, hv | .float _, hv | .str _, hv | .time _, hv | .arr _, hv | .dict _, hv =>
      simp only [colValueP, isQuery, Bool.false_eq_true, if_false]
      exact ends_pure hv

theorem ext_rowSet (st : St F S) (c : Nat) (k : Str) {v : V F} (hv : Data v) :
    Ext G st ((Prim.rowSet c k v : Prim F S).step st).2 where
  len := Nat.le_refl _
  vars _ _ := rfl
  depth _ _ := rfl
  lazies i l h := ⟨l, h, rfl, rfl, id⟩
  rows i r h := by
    simp only [Prim.step]
    cases hc : st.rows[c]? with
    | none => exact ⟨r, h, rfl, id⟩
    | some r0 =>
      by_cases hi : c = i
      · subst hi
        rw [hc] at h
        cases h
        have hlt : c < st.rows.length := (List.getElem?_eq_some_iff.1 hc).1
        refine ⟨{ r with cache := OD.set r.cache k v }, by simp [hlt], rfl, ?_⟩
        intro hcache
        exact dataD_iff.1 (dataD_set (dataD_iff.2 hcache) hv)
      · exact ⟨r, by rw [List.getElem?_set_ne hi]; exact h, rfl, id⟩
  fns := id

theorem CellOK.row {m : Nat} {st : St F S} {cell : Nat} (h : CellOK G H m st cell) : RowOK G H st cell := by
  intro st1 x1 f1 k
  obtain ⟨r, h1, h2, h3⟩ := h.ext x1
  refine ends_call ?_
  simp only [body]
  refine ends_prim (Ext.refl _) ?_
  simp only [Prim.step, h1]
  cases hc : OD.get r.cache k with
  | some v => exact ends_pure (by simpa [AnsData] using h2 _ (OD.mem_of_get hc))
  | none =>
    cases hg : r.getter k with
    | none => exact ends_pure (by simp [AnsData, Data])
    | some g =>
      obtain ⟨p, hp, rfl⟩ := getter_mem hg
      refine (ends_getter (h3 p hp)).bind (fun v s2 x2 hv => ?_)
      exact ends_prim (ext_rowSet s2 _ _ hv) (ends_pure (by simpa [AnsData] using hv))

theorem ends_matRow {m : Nat} {st : St F S} {cell : Nat} (h : CellOK G H m st cell) :
    Ends G H (matRowP cell) st Data := by
  unfold matRowP
  obtain ⟨r, h1, h2, h3⟩ := h
  refine ends_prim (Ext.refl _) ?_
  simp only [Prim.step, h1]
  refine Ends.bind (Q := DataD) ?_ (fun d s1 _ hd => ends_pure (by simpa [Data] using hd))
  refine ends_foldP (by simp [DataD]) (fun acc k s1 _ hx hacc => ?_)
  obtain ⟨r', g1, g2, g3⟩ := CellOK.ext (G := G) (H := H) (m := m) ⟨r, h1, h2, h3⟩ hx
  unfold matColP
  refine ends_prim (Ext.refl _) ?_
  simp only [Prim.step, g1]
  cases hc : OD.get r'.cache k with
  | some v => exact ends_pure (dataD_set hacc (g2 _ (OD.mem_of_get hc)))
  | none =>
    cases hg : r'.getter k with
    | none => exact ends_pure hacc
    | some g =>
      obtain ⟨p, hp, rfl⟩ := getter_mem hg
      exact (ends_getter (g3 p hp)).bind (fun v s2 x2 hv => ends_pure (dataD_set hacc hv))

/-- The getters of a row under construction. -/
def ColsFact (G : Frag) (H : Host F S) (m ns : Nat) (l : List (Str × Getter F)) : Prop :=
  ∀ p ∈ l, match p.2 with
    | .const v => Data v
    | .col c _ ns' => ColFact G H m c ∧ ns' = ns

theorem ends_star (hT : Total G H) {m ns : Nat} {dedup : Bool} {s : Nat} {row : V F} (hr : Data row)
    {acc : List (Str × Getter F)} (ha : ColsFact G H m ns acc) {st : St F S} :
    Ends G H (starP dedup s row acc) st (ColsFact G H m ns) := by
  unfold starP
  refine (ends_members hT row s st hr).bind (fun ms s1 x1 _ => ?_)
  refine ends_foldP ha (fun acc k s2 _ x2 hacc => ?_)
  unfold starStepP
  split
  · exact ends_pure hacc
  · refine (ends_assoc_data hT row _ s s2 hr (by simp [KeyData, Data])).bind (fun r s3 x3 hr => ?_)
    match r, hr with
    | (v, true), hr =>
      refine ends_pure (fun p hp => ?_)
      rcases List.mem_append.1 hp with hp | hp
      · exact hacc p hp
      · rw [List.mem_singleton.1 hp]; exact hr
    | (_, false), hr => exact ends_pure hacc

/-- What `Transform` leaves behind. -/
structure Made (G : Frag) (H : Host F S) (m : Nat) (st : St F S) (s : Nat) (row : V F) (st' : St F S) (cell : Nat) :
    Prop where
  ext : Ext G st st'
  cell : ∃ ns cols, st'.rows[cell]? = some ⟨cols, []⟩ ∧ ColsFact G H m ns cols ∧ st.scopes.length ≤ ns ∧
    ns < st'.scopes.length ∧ (st'.scp ns).vars = (st.scp s).vars ++ [row] ∧
    (st'.scp ns).depth = (st.scp s).depth + 1

theorem ext_newRow (st : St F S) (cols : List (Str × Getter F)) :
    Ext G st ((Prim.newRow cols : Prim F S).step st).2 where
  len := Nat.le_refl _
  vars _ _ := rfl
  depth _ _ := rfl
  lazies i l h := ⟨l, h, rfl, rfl, id⟩
  rows i r h := by
    refine ⟨r, ?_, rfl, id⟩
    have hlt : i < st.rows.length := (List.getElem?_eq_some_iff.1 h).1
    show (st.rows ++ [_])[i]? = some r
    rw [List.getElem?_append_left hlt, h]
  fns := id

theorem ends_transform (hT : Total G H) {m : Nat} {all : Bool} {cols : List Col}
    (hc : ∀ c ∈ cols, ColFact G H m c) {s : Nat} {row : V F} (hr : Data row) {st : St F S}
    (hs : s < st.scopes.length) :
    ∃ cell st', Runs H (transformP H all cols s row) st cell st' ∧ Made G H m st s row st' cell := by
  unfold transformP
  have hinit : ∀ ns, Ends G H (allColsP all s row) st (ColsFact G H m ns) := by
    intro ns
    unfold allColsP
    split
    · exact ends_star hT hr (fun p hp => by cases hp)
    · exact ends_pure (fun p hp => by cases hp)
  obtain ⟨i0, s1, r1, x1, _⟩ := hinit 0
  have hi : ColsFact G H m s1.scopes.length i0 := by
    obtain ⟨i1, s1', r1', _, h'⟩ := hinit s1.scopes.length
    rw [(r1.det r1').1]; exact h'
  obtain ⟨g, s2, r2, x2, hg⟩ : Ends G H (foldP (addColP H s s1.scopes.length row) i0 cols) (s1.push s [row])
      (ColsFact G H m s1.scopes.length) := by
    refine ends_foldP hi (fun acc c s2 hcm x2 hacc => ?_)
    unfold addColP
    split
    · exact ends_star hT hr hacc
    · refine ends_pure (fun p hp => ?_)
      rcases List.mem_append.1 hp with hp | hp
      · exact hacc p hp
      · rw [List.mem_singleton.1 hp]; exact ⟨hc c hcm, rfl⟩
  have x3 := ext_newRow (G := G) s2 g
  refine ⟨((Prim.newRow g : Prim F S).step s2).1, ((Prim.newRow g : Prim F S).step s2).2,
    runs_bind.2 ⟨_, _, r1, ?_⟩, ?_⟩
  · rw [runs_pb, runs_pb]
    have he : ((Prim.append ((Prim.copy s : Prim F S).step s1).1 row : Prim F S).step
        ((Prim.copy s : Prim F S).step s1).2).2 = s1.push s [row] := by
      rw [copy_push]
      exact congrArg Prod.snd (append_push s1 s [] row)
    rw [he]
    exact runs_bind.2 ⟨_, _, r2, runs_prim.2 ⟨rfl, rfl⟩⟩
  · have hlt : s1.scopes.length < (s1.push s [row]).scopes.length := by simp
    have hx := (ext_push (G := G) s1 s [row])
    refine ⟨(((x1.trans hx).trans x2).trans x3), s1.scopes.length, g, by simp [Prim.step], hg, x1.len,
      Nat.lt_of_lt_of_le hlt (Nat.le_trans x2.len x3.len), ?_, ?_⟩
    · rw [x3.vars _ (Nat.lt_of_lt_of_le hlt x2.len), x2.vars _ hlt, push_scp, x1.vars s hs]
    · rw [x3.depth _ (Nat.lt_of_lt_of_le hlt x2.len), x2.depth _ hlt, push_scp, x1.depth s hs]

/-- The row can be computed in any state in which the columns' scope is still intact. -/
theorem cell_of {m : Nat} {base st : St F S} {s cell ns : Nat} {cols : List (Str × Getter F)} {row : V F}
    (hs : At G H m base s) (hr : Data row) (hx : Ext G base st) (h1 : st.rows[cell]? = some ⟨cols, []⟩)
    (h2 : ColsFact G H m ns cols) (h3 : ns < st.scopes.length)
    (h4 : (st.scp ns).vars = (base.scp s).vars ++ [row]) (h5 : (base.scp s).depth ≤ (st.scp ns).depth) :
    CellOK G H m st cell := by
  refine ⟨_, h1, by simp, fun g hg => ?_⟩
  have := h2 g hg
  obtain ⟨k, g⟩ := g
  cases g with
  | const v => exact this
  | col c n ns' =>
    obtain ⟨hc, rfl⟩ := this
    refine ⟨hc, env_new hs.env hx h3 h4 (fun v hv => by
      rw [List.mem_singleton.1 hv]; exact Or.inl hr), ?_⟩
    have := hs.depth
    omega

/-- A row with the condition it must meet. -/
theorem ends_processRow (hT : Total G H) {m : Nat} {all : Bool} {cols : List Col} {where_ : Option Comma}
    (hc : ∀ c ∈ cols, ColFact G H m c) (hw : G.optComma where_) {s : Nat} {row : V F} (hr : Data row)
    {st : St F S} (hs : At G H m st s) :
    Ends G H (processRowP H all cols where_ s row) st DataL := by
  unfold processRowP
  have hc0 := sub_copy (G := G) st s
  refine ends_prim hc0.ext ?_
  have hsub : At G H m ((Prim.copy s : Prim F S).step st).2 ((Prim.copy s : Prim F S).step st).1 :=
    ⟨hc0.env hs.env, by rw [hc0.depth]; have := hs.depth; omega⟩
  generalize ((Prim.copy s : Prim F S).step st).1 = sub at hsub
  generalize ((Prim.copy s : Prim F S).step st).2 = st1 at hsub hc0
  obtain ⟨cell, st2, r2, made⟩ := ends_transform hT (all := all) hc hr hsub.env.lt
  obtain ⟨ns, cs, c1, c2, c3, c4, c5, c6⟩ := made.cell
  have hcell : CellOK G H m st2 cell := cell_of hsub hr made.ext c1 c2 c4 c5 (by rw [c6]; omega)
  have hrest : Ends G H (match where_ with
      | none => do
        let out ← matRowP cell
        pure [out]
      | some w => do
        let ns ← prim (.copy sub)
        prim (.append ns row)
        prim (.append ns (.obj (.row cell)))
        let v ← call (.comma w ns)
        let b ← H.truth v s
        if b then do
          let out ← matRowP cell
          pure [out]
        else pure []) st2 DataL := by
    cases where_ with
    | none => exact (ends_matRow hcell).bind (fun v s1 _ hv => ends_pure (by simp [DataL, hv]))
    | some w =>
      have he : ((Prim.append ((Prim.copy sub : Prim F S).step st2).1 (.obj (.row cell)) : Prim F S).step
          ((Prim.append ((Prim.copy sub : Prim F S).step st2).1 row : Prim F S).step
          ((Prim.copy sub : Prim F S).step st2).2).2).2 = st2.push sub [row, .obj (.row cell)] := by
        rw [copy_push]
        have h1 := append_push st2 sub [] row
        have h2 := append_push st2 sub [row] (.obj (.row cell))
        rw [show ((Prim.append ((st2.scopes.length, st2.push sub []) : Nat × St F S).1 row : Prim F S).step
          ((st2.scopes.length, st2.push sub []) : Nat × St F S).2).2 = st2.push sub ([] ++ [row]) from congrArg Prod.snd h1]
        exact congrArg Prod.snd h2
      have x3 := ext_push (G := G) st2 sub [row, .obj (.row cell)]
      have hwh : At G H m (st2.push sub [row, .obj (.row cell)]) st2.scopes.length := by
        refine ⟨(hsub.ext made.ext).env.push ?_, ?_⟩
        · intro v hv
          rcases List.mem_cons.1 hv with rfl | hv
          · exact Or.inl hr
          · rw [List.mem_singleton.1 hv]
            exact Or.inr (Or.inr ⟨cell, rfl, hcell.row⟩)
        · rw [push_scp]
          have := (hsub.ext made.ext).depth
          simp only
          omega
      obtain ⟨out, s4, r4, x4, d4⟩ : Ends G H (do
          let v ← call (.comma w st2.scopes.length)
          let b ← H.truth v s
          if b then do
            let out ← matRowP cell
            pure [out]
          else pure []) (st2.push sub [row, .obj (.row cell)]) DataL := by
        refine (ends_comma hT (fun m' _ => exprOK hT m') w hw _ _ hwh).bind (fun v s4 x4 hv => ?_)
        refine (hT.truth v s s4 hv).bind (fun b s5 x5 _ => ?_)
        split
        · exact (ends_matRow (((hcell.ext x3).ext x4).ext x5)).bind (fun v s1 _ hv => ends_pure (by simp [DataL, hv]))
        · exact ends_pure (by simp [DataL])
      refine ⟨out, s4, ?_, x3.trans x4, d4⟩
      simp only
      rw [runs_pb, runs_pb, runs_pb, he]
      exact r4
  obtain ⟨out, s3, r3, x3, d3⟩ := hrest
  exact ⟨out, s3, runs_bind.2 ⟨_, _, r2, r3⟩, made.ext.trans x3, d3⟩

/-- One row of a grouped query. -/
theorem ends_groupRow (hT : Total G H) {m : Nat} {all : Bool} {cols : List Col} {where_ : Option Comma} {gb : Comma}
    (hc : ∀ c ∈ cols, ColFact G H m c) (hw : G.optComma where_) (hg : G.comma gb) {g : Nat} {row : V F}
    (hr : Data row) {bins : OD (Bin F)} (hb : ∀ b ∈ bins, Data b.2.row) {st : St F S} (hs : At G H m st g) :
    Ends G H (groupRowP H all cols where_ gb g bins row) st (fun bins' => ∀ b ∈ bins', Data b.2.row) := by
  unfold groupRowP
  have hc0 := sub_copy (G := G) st g
  generalize hsub : ((Prim.copy g : Prim F S).step st).1 = ns at hc0
  generalize hst1 : ((Prim.copy g : Prim F S).step st).2 = st1 at hc0
  obtain ⟨cell, st2, r2, made⟩ := ends_transform hT (all := all) hc hr hc0.lt
  obtain ⟨ns', cs, c1, c2, c3, c4, c5, c6⟩ := made.cell
  have h2 := hc0.step made.ext
  let st3 := (st2.appendVar ns row).appendVar ns (.obj (.row cell))
  have hx3 : Ext G st st3 := (h2.ext.append h2.new row).append h2.new _
  have hlt3 : ns < st3.scopes.length := by simpa [st3, St.appendVar] using h2.lt
  have hne : ns ≠ ns' := Nat.ne_of_lt (Nat.lt_of_lt_of_le hc0.lt c3)
  have hlt1 : ns < (st2.appendVar ns row).scopes.length := by simpa [St.appendVar] using h2.lt
  have hscp : st3.scp ns = { st2.scp ns with vars := (st2.scp ns).vars ++ [row] ++ [.obj (.row cell)] } := by
    show ((st2.appendVar ns row).appendVar ns (.obj (.row cell))).scp ns = _
    rw [show ((st2.appendVar ns row).appendVar ns (.obj (.row cell))).scp ns =
      { (st2.appendVar ns row).scp ns with vars := ((st2.appendVar ns row).scp ns).vars ++ [.obj (.row cell)] }
      from scp_set_self hlt1]
    rw [show (st2.appendVar ns row).scp ns = { st2.scp ns with vars := (st2.scp ns).vars ++ [row] }
      from scp_set_self h2.lt]
  have hscp' : st3.scp ns' = st2.scp ns' := by
    show ((st2.appendVar ns row).appendVar ns (.obj (.row cell))).scp ns' = _
    rw [show ((st2.appendVar ns row).appendVar ns (.obj (.row cell))).scp ns' = (st2.appendVar ns row).scp ns'
      from scp_set_ne hne]
    exact scp_set_ne hne
  have hcell : CellOK G H m st3 cell := by
    refine cell_of hs hr hx3 c1 c2 ?_ ?_ ?_
    · simpa [st3, St.appendVar] using c4
    · rw [hscp', c5, hc0.vars]
    · rw [hscp', c6, hc0.depth]; omega
  have hat : At G H m st3 ns := by
    refine ⟨⟨hlt3, fun v hv => ?_, hx3.fns hs.env.fns⟩, ?_⟩
    · rw [hscp] at hv
      simp only [h2.vars, List.mem_append, List.mem_singleton] at hv
      rcases hv with (hv | rfl) | rfl
      · exact (hs.env.vars v hv).ext hx3
      · exact Or.inl hr
      · exact Or.inr (Or.inr ⟨cell, rfl, hcell.row⟩)
    · rw [hscp]
      simp only [h2.depth]
      have := hs.depth
      omega
  obtain ⟨out, s9, r9, x9, d9⟩ : Ends G H (do
      let pass ← passP H where_ ns g
      if pass = false then pure bins
      else do
        let k ← call (.comma gb ns)
        let key ← H.toStr k ns
        let c ← binCtxP bins key
        prim (.setAg ns c)
        let out ← matRowP cell
        pure (OD.update bins key ⟨c, out⟩)) st3 (fun bins' => ∀ b ∈ bins', Data b.2.row) := by
    have hpass : Ends G H (passP H where_ ns g) st3 (fun _ => True) := by
      unfold passP
      cases where_ with
      | none => exact ends_pure trivial
      | some w =>
        refine (ends_comma hT (fun m' _ => exprOK hT m') w hw _ _ hat).bind (fun v s4 x4 hv => ?_)
        exact hT.truth v g s4 hv
    refine hpass.bind (fun b s4 x4 _ => ?_)
    split
    · exact ends_pure hb
    · refine (ends_comma hT (fun m' _ => exprOK hT m') gb hg _ _ (hat.ext x4)).bind (fun k s5 x5 hk => ?_)
      refine (hT.toStr k ns s5 hk).bind (fun key s6 x6 _ => ?_)
      have hbin : Ends G H (binCtxP bins key) s6 (fun _ => True) := by
        unfold binCtxP
        split
        · exact ends_pure trivial
        · exact ⟨_, _, runs_prim.2 ⟨rfl, rfl⟩, ext_eq rfl rfl rfl rfl, trivial⟩
      refine hbin.bind (fun c s7 x7 _ => ?_)
      have x8 : Ext G s7 ((Prim.setAg ns c : Prim F S).step s7).2 := ext_setAg s7 ns c
      refine ends_prim x8 ?_
      refine (ends_matRow (((((hcell.ext x4).ext x5).ext x6).ext x7).ext x8)).bind (fun out s9 x9 ho => ends_pure ?_)
      intro b hb'
      rcases mem_update hb' with hb' | rfl
      · exact hb b hb'
      · exact ho
  refine ⟨out, s9, ?_, hx3.trans x9, d9⟩
  rw [runs_pb, hsub, hst1]
  refine runs_bind.2 ⟨_, _, r2, ?_⟩
  rw [runs_pb, runs_pb]
  exact r9

/-! ## Queries -/

/-- Queries finish `m` levels from the limit. -/
def QueryOK (G : Frag) (H : Host F S) (m : Nat) : Prop :=
  ∀ st s q, At G H m st s → G.select q → Ends G H (call (.select q s)) st DataL

/-- Evaluating what a name stands for. -/
theorem ends_evalSymbol_data {v : V F} {s : Nat} {st : St F S} (hv : Data v) :
    Ends G H (call (.evalSymbol v s)) st DataL := by
  refine ends_call ?_
  simp only [body]
  refine ends_prim (Ext.refl _) ?_
  split
  · exact ends_pure (by simp [DataL])
  · match v, hv with
    | .null, hv | .bool _, hv | .int _, hv | .float _, hv | .str _, hv | .time _, hv | .dict _, hv =>
      simp only [isQuery, Bool.false_eq_true, if_false]
      exact ends_pure (by simp [DataL, hv])
    | .arr l, hv =>
      simp only
      exact ends_pure (by simpa [Data] using hv)

theorem ends_evalQuery {m : Nat} (ih : ∀ m' < m, QueryOK G H m') {q : SQuery} (hq : SqueryOK G H q) {s : Nat}
    {st : St F S} (hs : At G H m st s) (hd : (st.scp s).depth ≤ 1000) :
    Ends G H (call (.evalQuery (.obj (.squery q)) s)) st DataL := by
  refine ends_call ?_
  simp only [body]
  have hc0 := sub_copy (G := G) st s
  refine ends_prim hc0.ext ?_
  have := hs.depth
  exact ih (m - 1) (by omega) _ _ _ ⟨hc0.env hs.env, by rw [hc0.depth]; omega⟩ hq.1

theorem ends_evalSymbol (hT : Total G H) {m : Nat} (ih : ∀ m' < m, QueryOK G H m') {k : Str} {v : V F} {s : Nat}
    {st : St F S} (hv : ValOK G H k v) (hs : At G H m st s) :
    Ends G H (call (.evalSymbol v s)) st DataL := by
  rcases hv with hv | ⟨e, rfl, he⟩ | ⟨_, ⟨q, rfl, hq⟩ | ⟨rows, rfl, hr⟩⟩
  · exact ends_evalSymbol_data hv
  · refine ends_call ?_
    simp only [body]
    refine ends_prim (Ext.refl _) ?_
    split
    · exact ends_pure (by simp [DataL])
    · exact (exprOK hT m st s e.body hs he.1).bind (fun v s1 x1 hv => ends_evalSymbol_data hv)
  · refine ends_call ?_
    simp only [body]
    refine ends_prim (Ext.refl _) ?_
    by_cases ho : overflow (st.scp s).depth = true
    · simp only [Prim.step, ho, if_true]
      exact ends_pure (by simp [DataL])
    · simp only [Prim.step, ho, if_false, isQuery, if_true]
      exact ends_evalQuery ih hq hs (Nat.le_of_lt (not_overflow ho))
  · refine ends_call ?_
    simp only [body]
    refine ends_prim (Ext.refl _) ?_
    split
    · exact ends_pure (by simp [DataL])
    · simp only [isQuery, if_true]
      refine ends_call ?_
      simp only [body]
      exact ends_pure hr

theorem ends_storeArg {sub : Nat} {v : V F} {st : St F S} (hv : Data v) : Ends G H (storeArgP sub v) st Data := by
  match v, hv with
  | .null, hv | .bool _, hv | .int _, hv | .float _, hv | .str _, hv | .time _, hv | .arr _, hv | .dict _, hv =>
    simp only [storeArgP, isQuery, Bool.false_eq_true, if_false]
    exact ends_pure hv

theorem ends_storedQueryCall {m : Nat} (ih : ∀ m' < m, QueryOK G H m') {q : SQuery} (hq : SqueryOK G H q) {s : Nat}
    {st : St F S} (hs : At G H m st s) (hd : (st.scp s).depth < 1000) {args : OD (V F)} (ha : DataD args) :
    Ends G H (storedQueryCallP q s args) st DataL := by
  unfold storedQueryCallP
  have hc := sub_copy (G := G) st s
  generalize hsub : ((Prim.copy s : Prim F S).step st).1 = sub at hc
  generalize hst1 : ((Prim.copy s : Prim F S).step st).2 = st1 at hc
  have h2 := hc.step (ext_newAg st1 sub)
  generalize hst2 : ((Prim.newAg sub : Prim F S).step st1).2 = st2' at h2
  replace h2 := h2.step (ext_eq (st' := st2'.logs (callWarnings q (OD.keys args))) rfl rfl rfl rfl)
  generalize hst2' : st2'.logs (callWarnings q (OD.keys args)) = st2 at h2
  obtain ⟨vars, st3, r3, x3, d3⟩ : Ends G H (foldP (fun acc (p : Str × V F) => do
      let v ← storeArgP sub p.2
      pure (OD.set acc p.1 v)) [] args) st2 DataD := by
    refine ends_foldP (by simp [DataD]) (fun acc p s1 hp hx hacc => ?_)
    exact (ends_storeArg (dataD_iff.1 ha p hp)).bind (fun v s2 x2 hv => ends_pure (dataD_set hacc hv))
  have h3 := h2.step x3
  obtain ⟨e4, x4, d4⟩ := h3.append hs.env (v := .dict vars) (Or.inl (by simpa [Data] using d3))
  have := hs.depth
  obtain ⟨rows, st5, r5, x5, d5⟩ := ends_evalQuery ih hq (st := st3.appendVar sub (.dict vars)) (s := sub)
    ⟨e4, by rw [d4]; omega⟩ (by rw [d4]; omega)
  refine ⟨rows, st5, ?_, x4.trans x5, d5⟩
  rw [runs_pb, hsub, hst1, runs_pb, hst2, runs_logs, hst2']
  refine runs_bind.2 ⟨_, _, r3, ?_⟩
  rw [runs_pb]
  exact r5

theorem ends_evalSymbolWithArgs (hT : Total G H) {m : Nat} (ih : ∀ m' < m, QueryOK G H m') {k : Str} {v : V F}
    {s : Nat} {params : List Arg} (hp : G.args params)
    {st : St F S} (hv : ValOK G H k v) (hs : At G H m st s) :
    Ends G H (call (.evalSymbolWithArgs params v s)) st DataL := by
  refine ends_call ?_
  simp only [body]
  refine ends_prim (Ext.refl _) ?_
  by_cases ho : overflow (st.scp s).depth = true
  · simp only [Prim.step, ho, if_true]
    exact ends_pure (by simp [DataL])
  · simp only [Prim.step, ho, if_false]
    have hd := not_overflow ho
    have hargs := argFacts hT (fun m' (_ : m' < m) => exprOK hT m') params hp
    rcases hv with hv | ⟨e, rfl, he⟩ | ⟨_, ⟨q, rfl, hq⟩ | ⟨rows, rfl, hr⟩⟩
    · match v, hv with
      | .null, hv | .bool _, hv | .int _, hv | .float _, hv | .str _, hv | .time _, hv | .dict _, hv | .arr _, hv =>
        exact ends_prim (ext_eq rfl rfl rfl rfl) (ends_pure (by simp [DataL]))
    · have hc := sub_copy (G := G) st s
      generalize hsub : ((Prim.copy s : Prim F S).step st).1 = sub at hc
      generalize hst1 : ((Prim.copy s : Prim F S).step st).2 = st1 at hc
      obtain ⟨args, st3, r3, x3, d3⟩ := ends_buildArgs hargs (hs.ext hc.ext)
      obtain ⟨args', st4, r4, x4, d4⟩ := ends_applyDefaults he.2 (s := s) (st := st3) d3
      have h4 := (hc.step x3).step x4
      obtain ⟨e5, x5, d5⟩ := h4.append hs.env (v := .dict args') (Or.inl (by simpa [Data] using d4))
      obtain ⟨v, st6, r6, x6, d6⟩ := exprOK hT m (st4.appendVar sub (.dict args')) sub e.body
        ⟨e5, by rw [d5]; have := hs.depth; omega⟩ he.1
      obtain ⟨rows, st7, r7, x7, d7⟩ := ends_evalSymbol_data (G := G) (H := H) (s := s) (st := st6) d6
      refine ⟨rows, st7, ?_, (x5.trans x6).trans x7, d7⟩
      simp only [Bool.false_eq_true, if_false]
      rw [runs_pb, hsub, hst1]
      refine runs_bind.2 ⟨_, _, r3, runs_bind.2 ⟨_, _, r4, ?_⟩⟩
      rw [runs_pb]
      exact runs_bind.2 ⟨_, _, r6, r7⟩
    · refine (ends_buildArgs hargs hs).bind (fun args s1 x1 ha => ?_)
      refine (ends_applyDefaults hq.2 ha).bind (fun args' s2 x2 ha' => ?_)
      exact ends_storedQueryCall ih hq ((hs.ext x1).ext x2)
        (by rw [x2.depth s (hs.ext x1).env.lt, x1.depth s hs.env.lt]; exact hd) ha'
    · exact ends_prim (ext_eq rfl rfl rfl rfl) (ends_pure (by simp [DataL]))

theorem ends_plugin (hT : Total G H) {m : Nat} (ih : ∀ m' < m, QueryOK G H m') {p : Plugin} (hp : G.plugin p)
    {s : Nat} {st : St F S} (hs : At G H m st s) : Ends G H (call (.plugin p s)) st DataL := by
  obtain ⟨name, called, args⟩ := p
  obtain ⟨⟨c, hn, hk, hc⟩, ha⟩ := hp
  refine ends_call ?_
  simp only [body, hn, findP]
  by_cases hreg : called = true ∧ H.isPlugin c = true
  · simp only [hreg, and_self, if_true]
    refine Ends.bind (ends_pure (Q := fun r => r = some (.obj (.plugin c))) rfl) (fun r s1 x1 hr => ?_)
    subst hr
    simp only
    refine ends_call ?_
    simp only [body]
    refine ends_prim (Ext.refl _) ?_
    split
    · exact ends_pure (by simp [DataL])
    · have hs1 : At G H m ((Prim.depth s : Prim F S).step s1).2 s := hs.ext x1
      refine (ends_buildArgs (argFacts hT (fun m' (_ : m' < m) => exprOK hT m') args ha) hs1).bind
        (fun args s2 x2 ha => ?_)
      exact hT.plugin c (hc hreg.1) s args s2 ha (x2.fns hs1.env.fns)
  · rw [if_neg hreg]
    unfold walkP
    have hr : Ends G H (call (.assoc (.obj (.scope s)) (.val (.str c)) s)) st
      (fun r => r.2 = true → (st.scp s).depth < 1000 ∧ ValOK G H c (r.1.getD .null)) := by
      obtain ⟨a, s1, h1, h2, h3⟩ := ends_resolve hT hk hs.env
      exact ⟨a, s1, runs_assoc_scope.2 h1, h2, h3⟩
    have hw : Ends G H (walkP s true (.obj (.scope s)) [c]) st (fun r => ∀ v, r = some v → ValOK G H c v) := by
      unfold walkP
      refine hr.bind (fun r s1 x1 hr => ?_)
      match r, hr with
      | (_, false), hr =>
        simp only [if_true]
        exact ends_prim (ext_eq rfl rfl rfl rfl) (ends_pure (by simp))
      | (x, true), hr => exact ends_pure (by simpa using (hr rfl).2)
    unfold walkP at hw
    refine hw.bind (fun r s1 x1 hr => ?_)
    match r, hr with
    | none, hr =>
      simp only
      exact ends_prim (ext_eq rfl rfl rfl rfl) (ends_pure (by simp [DataL]))
    | some v, hr =>
      simp only
      split
      · exact ends_evalSymbolWithArgs hT ih ha (hr v rfl) (hs.ext x1)
      · exact ends_evalSymbol hT ih (hr v rfl) (hs.ext x1)

theorem dataL_append {a b : List (V F)} (ha : DataL a) (hb : DataL b) : DataL (a ++ b) := by
  rw [dataL_iff] at *
  intro v hv
  rcases List.mem_append.1 hv with hv | hv
  · exact ha v hv
  · exact hb v hv

/-- A query whose columns can be computed. -/
theorem ends_select_of (hT : Total G H) {m : Nat} (ih : ∀ m' < m, QueryOK G H m') {ex all : Bool} {cols : List Col}
    {from_ : Plugin} {where_ groupBy : Option Comma} {orderBy : Option (Str × Bool)} {limit : Option I64}
    (hc : ∀ c ∈ cols, ColFact G H m c) (hf : G.plugin from_) (hw : G.optComma where_) (hg : G.optComma groupBy)
    {s : Nat} {st : St F S} (hs : At G H m st s) :
    Ends G H (call (.select (.mk ex all cols from_ where_ groupBy orderBy limit) s)) st DataL := by
  have hplain : ∀ st, At G H m st s →
      Ends G H (call (.select (.mk ex all cols from_ where_ none none none) s)) st DataL := by
    intro st hs
    refine ends_call ?_
    simp only [body]
    refine (ends_plugin hT ih hf hs).bind (fun rows s1 x1 hr => ?_)
    refine ends_foldP (by simp [DataL]) (fun acc row s2 hrow x2 hacc => ?_)
    refine (ends_processRow hT hc hw (dataL_iff.1 hr row hrow) ((hs.ext x1).ext x2)).bind
      (fun out s3 x3 ho => ends_pure (dataL_append hacc ho))
  have hnolimit : ∀ st, At G H m st s →
      Ends G H (call (.select (.mk ex all cols from_ where_ groupBy orderBy none) s)) st DataL := by
    intro st hs
    cases groupBy with
    | none => cases orderBy with
      | none => exact hplain st hs
      | some o =>
        obtain ⟨k, d⟩ := o
        refine ends_call ?_
        simp only [body]
        exact (hplain st hs).bind (fun rows s1 x1 hr => hT.sort _ _ _ _ _ hr)
    | some gb =>
      refine ends_call ?_
      simp only [body]
      refine (ends_plugin hT ih hf hs).bind (fun rows s1 x1 hr => ?_)
      have hs1 := hs.ext x1
      have hc0 := sub_copy (G := G) s1 s
      refine ends_prim hc0.ext ?_
      have hg0 : At G H m ((Prim.copy s : Prim F S).step s1).2 ((Prim.copy s : Prim F S).step s1).1 :=
        ⟨hc0.env hs1.env, by rw [hc0.depth]; have := hs1.depth; omega⟩
      refine Ends.bind (Q := fun (bins : OD (Bin F)) => ∀ b ∈ bins, Data b.2.row)
        (ends_foldP (by simp) (fun acc row s2 hrow x2 hacc => ?_)) (fun bins s2 x2 hb => ?_)
      · exact ends_groupRow hT hc hw hg (dataL_iff.1 hr row hrow) hacc (hg0.ext x2)
      · have hout : DataL (bins.map (fun b => b.2.row)) := by
          rw [dataL_iff]
          intro v hv
          obtain ⟨b, hb', rfl⟩ := List.mem_map.1 hv
          exact hb b hb'
        cases orderBy with
        | none => exact ends_pure hout
        | some o =>
          obtain ⟨k, d⟩ := o
          exact hT.sort _ _ _ _ _ hout
  cases limit with
  | none => exact hnolimit st hs
  | some n =>
    refine ends_call ?_
    simp only [body]
    refine (hnolimit st hs).bind (fun rows s1 x1 hr => ends_pure ?_)
    rw [dataL_iff] at *
    exact fun v hv => hr v (List.mem_of_mem_take hv)

theorem ends_unwrap (hT : Total G H) {s : Nat} {v : V F} {st : St F S} (hv : Data v) :
    Ends G H (unwrapP s v) st DataL := by
  unfold unwrapP
  refine (ends_members hT v s st hv).bind (fun ms s1 x1 _ => ?_)
  split
  · refine (ends_assoc_data hT v _ s s1 hv (by simp [KeyData, Data])).bind (fun r s2 x2 hr => ?_)
    match r, hr with
    | (x, true), hr => exact ends_pure (by simpa [DataL, AnsData] using hr)
    | (_, false), hr => exact ends_pure (by simp [DataL])
  · exact ends_pure (by simp [DataL, hv])

mutual
theorem ends_select (hT : Total G H) {m : Nat} (ih : ∀ m' < m, QueryOK G H m') : ∀ (q : Select), G.select q →
    ∀ st s, At G H m st s → Ends G H (call (.select q s)) st DataL
  | .mk ex all cols from_ where_ groupBy orderBy limit, hq, st, s, hs =>
    ends_select_of hT ih (ends_cols hT ih cols hq.1) hq.2.1 hq.2.2.1 hq.2.2.2 hs
theorem ends_cols (hT : Total G H) {m : Nat} (ih : ∀ m' < m, QueryOK G H m') : ∀ (l : List Col), G.cols l →
    ∀ c ∈ l, ColFact G H m c
  | [], _, c, hc => by cases hc
  | c0 :: l, hl, c, hc => by
    rcases List.mem_cons.1 hc with h | hc
    · rw [h]; exact ends_col hT ih c0 hl.1
    · exact ends_cols hT ih l hl.2 c hc
theorem ends_col (hT : Total G H) {m : Nat} (ih : ∀ m' < m, QueryOK G H m') : ∀ (c : Col), G.col c → ColFact G H m c
  | .mk .star _, _, st, s, hs => by
    refine ends_call ?_
    simp only [body]
    exact ends_pure (by simp [Data])
  | .mk (.expr e) _, he, st, s, hs => by
    refine ends_call ?_
    simp only [body]
    exact exprOK hT m st s e hs he
  | .mk (.select q) _, hq, st, s, hs => by
    refine ends_call ?_
    simp only [body]
    refine (ends_select hT ih q hq st s hs).bind (fun items s1 x1 hi => ?_)
    refine Ends.bind (Q := DataL) (ends_foldP (by simp [DataL]) (fun acc i s2 hm x2 hacc => ?_))
      (fun rows s2 x2 hr => ?_)
    · exact (ends_unwrap hT (dataL_iff.1 hi i hm)).bind (fun r s3 x3 hr => ends_pure (dataL_append hacc hr))
    · split
      · exact ends_pure (by simpa [DataL] using hr)
      · exact ends_pure (by simpa [Data] using hr)
end

/-- Every query of the fragment finishes, whatever LET definitions are in scope and
however they refer to each other. -/
theorem queryOK (hT : Total G H) : ∀ m, QueryOK G H m := by
  intro m
  induction m using Nat.strongRecOn with
  | _ m ih => exact fun st s q hs hq => ends_select hT ih q hq st s hs

end
end Vfilter.Vql
