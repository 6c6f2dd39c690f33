import Verif.EvalFrame
/-!
# What an evaluation can reach

The heap of the evaluator has no global names: a program can only use a scope, a lazy
expression, a lazy row, a call site or an aggregator context if it was given its index, found
it in a value it can reach, or created it.  `Know` is a set of such indices, `Closed` says that
everything stored in the known part of the heap is known too, and `Prog.Within` says that a
program uses known indices only.  `within_interp` shows that running such a program stays
inside the known part of the heap (plus what it creates), leaves everything else unchanged,
and keeps every smaller closed part of the heap closed.
-/
set_option linter.all false

namespace Vfilter.Vql

/-- Known indices: scopes, scopes that column getters are evaluated in, scopes whose aggregator
context may be looked up, lazy expressions, lazy rows, lazy rows whose getters are known, call sites and aggregator contexts. -/
structure Know where
  sc : Nat → Prop
  gs : Nat → Prop
  pa : Nat → Prop
  lz : Nat → Prop
  rw : Nat → Prop
  rg : Nat → Prop
  si : Nat → Prop
  cx : Nat → Prop

/-- More is known. -/
structure Know.Le (K L : Know) : Prop where
  sc : ∀ {i}, K.sc i → L.sc i
  gs : ∀ {i}, K.gs i → L.gs i
  pa : ∀ {i}, K.pa i → L.pa i
  lz : ∀ {i}, K.lz i → L.lz i
  rw : ∀ {i}, K.rw i → L.rw i
  rg : ∀ {i}, K.rg i → L.rg i
  si : ∀ {i}, K.si i → L.si i
  cx : ∀ {i}, K.cx i → L.cx i

theorem Know.Le.refl (K : Know) : K.Le K := ⟨id, id, id, id, id, id, id, id⟩

theorem Know.Le.trans {K L M : Know} (h : K.Le L) (h' : L.Le M) : K.Le M :=
  ⟨fun x => h'.sc (h.sc x), fun x => h'.gs (h.gs x), fun x => h'.pa (h.pa x), fun x => h'.lz (h.lz x), fun x => h'.rw (h.rw x),
    fun x => h'.rg (h.rg x), fun x => h'.si (h.si x), fun x => h'.cx (h.cx x)⟩

/-- Nothing is known. -/
def Know.none : Know := ⟨fun _ => False, fun _ => False, fun _ => False, fun _ => False, fun _ => False, fun _ => False, fun _ => False, fun _ => False⟩

theorem Know.none_le (K : Know) : Know.none.Le K :=
  ⟨False.elim, False.elim, False.elim, False.elim, False.elim, False.elim, False.elim, False.elim⟩

section
variable {F S : Type}

/-- The object is plain or its index is known. -/
def OW (K : Know) : Obj → Prop
  | .lazy c => K.lz c
  | .site c => K.si c
  | .scope i => K.sc i
  | .row c => K.rw c
  | _ => True

mutual
/-- All objects in the value are known. -/
def VW (K : Know) : V F → Prop
  | .obj o => OW K o
  | .arr l => VWL K l
  | .query l => VWL K l
  | .dict d => VWD K d
  | _ => True
def VWL (K : Know) : List (V F) → Prop
  | [] => True
  | v :: r => VW K v ∧ VWL K r
def VWD (K : Know) : List (Str × V F) → Prop
  | [] => True
  | p :: r => VW K p.2 ∧ VWD K r
end

theorem OW.mono {K L : Know} (h : K.Le L) {o : Obj} (ho : OW K o) : OW L o := by
  cases o <;> first | trivial | exact h.lz ho | exact h.si ho | exact h.sc ho | exact h.rw ho

mutual
theorem VW.mono {K L : Know} (h : K.Le L) : ∀ {v : V F}, VW K v → VW L v
  | .obj o, hv => by simp only [VW] at hv ⊢; exact hv.mono h
  | .arr l, hv => by simp only [VW] at hv ⊢; exact VWL.mono h hv
  | .query l, hv => by simp only [VW] at hv ⊢; exact VWL.mono h hv
  | .dict d, hv => by simp only [VW] at hv ⊢; exact VWD.mono h hv
  | .null, _ => by simp [VW]
  | .bool _, _ => by simp [VW]
  | .int _, _ => by simp [VW]
  | .float _, _ => by simp [VW]
  | .str _, _ => by simp [VW]
  | .time _, _ => by simp [VW]
theorem VWL.mono {K L : Know} (h : K.Le L) : ∀ {l : List (V F)}, VWL K l → VWL L l
  | [], _ => by simp [VWL]
  | v :: r, hl => by simp only [VWL] at hl ⊢; exact ⟨hl.1.mono h, VWL.mono h hl.2⟩
theorem VWD.mono {K L : Know} (h : K.Le L) : ∀ {d : List (Str × V F)}, VWD K d → VWD L d
  | [], _ => by simp [VWD]
  | (k, v) :: r, hl => by simp only [VWD] at hl ⊢; exact ⟨hl.1.mono h, VWD.mono h hl.2⟩
end

theorem vwl_iff {K : Know} {l : List (V F)} : VWL K l ↔ ∀ v ∈ l, VW K v := by
  induction l with
  | nil => simp [VWL]
  | cons a r ih => simp [VWL, ih]

theorem vwd_iff {K : Know} {d : List (Str × V F)} : VWD K d ↔ ∀ p ∈ d, VW K p.2 := by
  induction d with
  | nil => simp [VWD]
  | cons a r ih => simp [VWD, ih]

@[simp] theorem vw_null {K : Know} : VW K (.null : V F) := by simp [VW]
@[simp] theorem vw_bool {K : Know} {b : Bool} : VW K (.bool b : V F) := by simp [VW]
@[simp] theorem vw_int {K : Know} {b : I64} : VW K (.int b : V F) := by simp [VW]
@[simp] theorem vw_float {K : Know} {b : F} : VW K (.float b : V F) := by simp [VW]
@[simp] theorem vw_str {K : Know} {b : Str} : VW K (.str b : V F) := by simp [VW]
@[simp] theorem vw_time {K : Know} {b : Int} : VW K (.time b : V F) := by simp [VW]
@[simp] theorem vw_arr {K : Know} {l : List (V F)} : VW K (.arr l : V F) ↔ ∀ v ∈ l, VW K v := by
  simp [VW, vwl_iff]
@[simp] theorem vw_query {K : Know} {l : List (V F)} : VW K (.query l : V F) ↔ ∀ v ∈ l, VW K v := by
  simp [VW, vwl_iff]
@[simp] theorem vw_dict {K : Know} {d : List (Str × V F)} : VW K (.dict d : V F) ↔ ∀ p ∈ d, VW K p.2 := by
  simp [VW, vwd_iff]
@[simp] theorem vw_obj {K : Know} {o : Obj} : VW K (.obj o : V F) ↔ OW K o := by simp [VW]

/-- The getter is a known value, or evaluated in a known scope. -/
def GW (K : Know) : Getter F → Prop
  | .const v => VW K v
  | .col _ _ ns => K.gs ns ∧ K.sc ns

theorem GW.mono {K L : Know} (h : K.Le L) {g : Getter F} (hg : GW K g) : GW L g := by
  cases g with
  | const v => exact VW.mono h hg
  | col c n ns => exact ⟨h.gs hg.1, h.sc hg.2⟩

/-- A value kept by an aggregate function. -/
def CW (K : Know) : Cell F Obj → Prop
  | .val v => VW K v
  | .items l => ∀ v ∈ l, VW K v
  | _ => True

theorem CW.mono {K L : Know} (h : K.Le L) {c : Cell F Obj} (hc : CW K c) : CW L c := by
  cases c <;> first | trivial | exact VW.mono h hc | exact fun v hv => (hc v hv).mono h

/-- An aggregator context. -/
def CtxW (K : Know) (c : AggCtx F Obj) : Prop := ∀ p ∈ c, CW K p.2

theorem CtxW.mono {K L : Know} (h : K.Le L) {c : AggCtx F Obj} (hc : CtxW K c) : CtxW L c :=
  fun p hp => (hc p hp).mono h

/-- The variables of a scope. -/
def ScpW (K : Know) (s : Scp F) : Prop := ∀ v ∈ s.vars, VW K v

theorem ScpW.mono {K L : Know} (h : K.Le L) {s : Scp F} (hs : ScpW K s) : ScpW L s :=
  fun v hv => (hs v hv).mono h

/-- A scope whose aggregator context is looked up. -/
structure PaW (K : Know) (s : Scp F) : Prop where
  parent : ∀ p, s.parent = some p → K.pa p
  ag : ∀ c, s.ag = some c → K.cx c

theorem PaW.mono {K L : Know} (h : K.Le L) {s : Scp F} (hs : PaW K s) : PaW L s :=
  ⟨fun p hp => h.pa (hs.parent p hp), fun c hc => h.cx (hs.ag c hc)⟩

/-- A lazy expression. -/
structure LazyW (K : Know) (l : LazyCell F) : Prop where
  scope : K.sc l.scope
  value : ∀ v, l.value = some v → VW K v

theorem LazyW.mono {K L : Know} (h : K.Le L) {l : LazyCell F} (hl : LazyW K l) : LazyW L l :=
  ⟨h.sc hl.scope, fun v hv => (hl.value v hv).mono h⟩

/-- Columns of a lazy row under construction. -/
def QG (K : Know) (l : List (Str × Getter F)) : Prop := ∀ p ∈ l, GW K p.2

theorem QG.mono {K L : Know} (h : K.Le L) {l : List (Str × Getter F)} (hl : QG K l) : QG L l :=
  fun p hp => (hl p hp).mono h

/-- The cached values of a lazy row. -/
def RowW (K : Know) (r : RowCell F) : Prop := ∀ p ∈ r.cache, VW K p.2

theorem RowW.mono {K L : Know} (h : K.Le L) {r : RowCell F} (hr : RowW K r) : RowW L r :=
  fun p hp => (hr p hp).mono h

/-- A call site. -/
def SiteW (K : Know) (x : V F × Nat) : Prop := VW K x.1 ∧ K.sc x.2

theorem SiteW.mono {K L : Know} (h : K.Le L) {x : V F × Nat} (hx : SiteW K x) : SiteW L x :=
  ⟨hx.1.mono h, h.sc hx.2⟩

/-- The cells with a known index exist and have the property. -/
def All {β : Type} (k : Nat → Prop) (l : List β) (P : β → Prop) : Prop :=
  ∀ i, k i → ∃ x, l[i]? = some x ∧ P x

theorem All.mono {β : Type} {k : Nat → Prop} {l : List β} {P P' : β → Prop} (h : All k l P)
    (hp : ∀ x, P x → P' x) : All k l P' := by
  intro i hi
  obtain ⟨x, hx, hP⟩ := h i hi
  exact ⟨x, hx, hp _ hP⟩

theorem All.push {β : Type} {k : Nat → Prop} {l : List β} {P P' : β → Prop} {y : β} (h : All k l P)
    (hp : ∀ x, P x → P' x) (hy : P' y) :
    All (fun i => k i ∨ i = l.length) (l ++ [y]) P' := by
  rintro i (hi | rfl)
  · obtain ⟨x, hx, hP⟩ := h i hi
    have hl := (List.getElem?_eq_some_iff.1 hx).1
    exact ⟨x, by rw [List.getElem?_append_left hl, hx], hp _ hP⟩
  · exact ⟨y, by simp, hy⟩

theorem All.grow {β : Type} {k : Nat → Prop} {l : List β} {P : β → Prop} {y : β} (h : All k l P) :
    All k (l ++ [y]) P := by
  intro i hi
  obtain ⟨x, hx, hP⟩ := h i hi
  have hl := (List.getElem?_eq_some_iff.1 hx).1
  exact ⟨x, by rw [List.getElem?_append_left hl, hx], hP⟩

theorem All.put {β : Type} {k : Nat → Prop} {l : List β} {P : β → Prop} {i : Nat} {y : β}
    (h : All k l P) (hy : k i → P y) : All k (l.set i y) P := by
  intro j hj
  obtain ⟨x, hx, hP⟩ := h j hj
  have hl := (List.getElem?_eq_some_iff.1 hx).1
  by_cases hij : i = j
  · subst hij
    exact ⟨y, by simp [hl], hy hj⟩
  · exact ⟨x, by rw [List.getElem?_set_ne hij, hx], hP⟩

theorem All.lt {β : Type} {k : Nat → Prop} {l : List β} {P : β → Prop} (h : All k l P) {i : Nat}
    (hi : k i) : i < l.length := by
  obtain ⟨x, hx, _⟩ := h i hi
  exact (List.getElem?_eq_some_iff.1 hx).1

/-- The known part of the heap refers to known indices only. -/
structure Closed (K : Know) (st : St F S) : Prop where
  sc : All K.sc st.scopes (ScpW K)
  gs : ∀ i, K.gs i → K.sc i
  pa : All K.pa st.scopes (PaW K)
  sp : ∀ i, K.sc i → K.pa i
  lz : All K.lz st.lazies (LazyW K)
  rw : All K.rw st.rows (RowW K)
  rg : All K.rg st.rows (fun r => QG K r.cols)
  si : All K.si st.sites (SiteW K)
  cx : All K.cx st.ctxs (CtxW K)

theorem closed_none (st : St F S) : Closed Know.none st :=
  ⟨fun _ h => False.elim h, fun _ h => False.elim h, fun _ h => False.elim h, fun _ h => False.elim h, fun _ h => False.elim h,
    fun _ h => False.elim h, fun _ h => False.elim h, fun _ h => False.elim h, fun _ h => False.elim h⟩

/-- `L` knows more than `K`, but of the objects existing in `st` only those of `K`. -/
structure KExt (st : St F S) (K L : Know) : Prop where
  le : K.Le L
  sc : ∀ i, L.sc i → K.sc i ∨ st.scopes.length ≤ i
  gs : ∀ i, L.gs i → K.gs i ∨ st.scopes.length ≤ i
  pa : ∀ i, L.pa i → K.pa i ∨ st.scopes.length ≤ i
  lz : ∀ i, L.lz i → K.lz i ∨ st.lazies.length ≤ i
  rw : ∀ i, L.rw i → K.rw i ∨ st.rows.length ≤ i
  rg : ∀ i, L.rg i → K.rg i ∨ st.rows.length ≤ i
  si : ∀ i, L.si i → K.si i ∨ st.sites.length ≤ i
  cx : ∀ i, L.cx i → K.cx i ∨ st.ctxs.length ≤ i

theorem KExt.refl (st : St F S) (K : Know) : KExt st K K :=
  ⟨Know.Le.refl K, fun _ h => Or.inl h, fun _ h => Or.inl h, fun _ h => Or.inl h, fun _ h => Or.inl h, fun _ h => Or.inl h, fun _ h => Or.inl h,
    fun _ h => Or.inl h, fun _ h => Or.inl h⟩

/-- The heap gets no smaller. -/
structure Len (st st' : St F S) : Prop where
  sc : st.scopes.length ≤ st'.scopes.length
  lz : st.lazies.length ≤ st'.lazies.length
  rw : st.rows.length ≤ st'.rows.length
  si : st.sites.length ≤ st'.sites.length
  cx : st.ctxs.length ≤ st'.ctxs.length

theorem Len.refl (st : St F S) : Len st st :=
  ⟨Nat.le_refl _, Nat.le_refl _, Nat.le_refl _, Nat.le_refl _, Nat.le_refl _⟩

theorem Len.trans {a b c : St F S} (h : Len a b) (h' : Len b c) : Len a c :=
  ⟨Nat.le_trans h.sc h'.sc, Nat.le_trans h.lz h'.lz, Nat.le_trans h.rw h'.rw, Nat.le_trans h.si h'.si,
    Nat.le_trans h.cx h'.cx⟩

theorem KExt.trans {st st1 : St F S} {K L M : Know} (h : KExt st K L) (hl : Len st st1) (h' : KExt st1 L M) :
    KExt st K M where
  le := h.le.trans h'.le
  sc i hi := by
    rcases h'.sc i hi with h1 | h1
    · exact h.sc i h1
    · exact Or.inr (Nat.le_trans hl.sc h1)
  gs i hi := by
    rcases h'.gs i hi with h1 | h1
    · exact h.gs i h1
    · exact Or.inr (Nat.le_trans hl.sc h1)
  pa i hi := by
    rcases h'.pa i hi with h1 | h1
    · exact h.pa i h1
    · exact Or.inr (Nat.le_trans hl.sc h1)
  lz i hi := by
    rcases h'.lz i hi with h1 | h1
    · exact h.lz i h1
    · exact Or.inr (Nat.le_trans hl.lz h1)
  rw i hi := by
    rcases h'.rw i hi with h1 | h1
    · exact h.rw i h1
    · exact Or.inr (Nat.le_trans hl.rw h1)
  rg i hi := by
    rcases h'.rg i hi with h1 | h1
    · exact h.rg i h1
    · exact Or.inr (Nat.le_trans hl.rw h1)
  si i hi := by
    rcases h'.si i hi with h1 | h1
    · exact h.si i h1
    · exact Or.inr (Nat.le_trans hl.si h1)
  cx i hi := by
    rcases h'.cx i hi with h1 | h1
    · exact h.cx i h1
    · exact Or.inr (Nat.le_trans hl.cx h1)

/-- Nothing outside the known part changes, and only columns of known scopes (or of the scope
singled out) are evaluated. -/
structure Same (X : Option (Nat × Nat)) (K : Know) (st st' : St F S) : Prop where
  len : Len st st'
  sc : ∀ i, i < st.scopes.length → ¬K.sc i → (st'.scp i).vars = (st.scp i).vars
  pa : ∀ i, i < st.scopes.length → ¬K.pa i → st'.scopes[i]? = st.scopes[i]?
  lz : ∀ i, i < st.lazies.length → ¬K.lz i → st'.lazies[i]? = st.lazies[i]?
  rw : ∀ i, i < st.rows.length → ¬K.rw i → st'.rows[i]? = st.rows[i]?
  si : ∀ i, i < st.sites.length → ¬K.si i → st'.sites[i]? = st.sites[i]?
  cx : ∀ i, i < st.ctxs.length → ¬K.cx i → st'.ctxs[i]? = st.ctxs[i]?
  evals : ∃ new, st'.evals = st.evals ++ new ∧
    ∀ p ∈ new, K.gs p.2 ∨ st.scopes.length ≤ p.2 ∨ ∃ c, X = some (c, p.2)

theorem Same.refl (X : Option (Nat × Nat)) (K : Know) (st : St F S) : Same X K st st :=
  ⟨Len.refl st, fun _ _ _ => rfl, fun _ _ _ => rfl, fun _ _ _ => rfl, fun _ _ _ => rfl, fun _ _ _ => rfl, fun _ _ _ => rfl,
    [], by simp, by simp⟩

theorem Same.trans {X : Option (Nat × Nat)} {K L : Know} {a b c : St F S} (h : Same X K a b) (he : KExt a K L)
    (h' : Same X L b c) : Same X K a c where
  len := h.len.trans h'.len
  sc i hi hk := by
    rw [h'.sc i (Nat.lt_of_lt_of_le hi h.len.sc) (fun hc => (he.sc i hc).elim hk (by omega)), h.sc i hi hk]
  pa i hi hk := by
    rw [h'.pa i (Nat.lt_of_lt_of_le hi h.len.sc) (fun hc => (he.pa i hc).elim hk (by omega)), h.pa i hi hk]
  lz i hi hk := by
    rw [h'.lz i (Nat.lt_of_lt_of_le hi h.len.lz) (fun hc => (he.lz i hc).elim hk (by omega)), h.lz i hi hk]
  rw i hi hk := by
    rw [h'.rw i (Nat.lt_of_lt_of_le hi h.len.rw) (fun hc => (he.rw i hc).elim hk (by omega)), h.rw i hi hk]
  si i hi hk := by
    rw [h'.si i (Nat.lt_of_lt_of_le hi h.len.si) (fun hc => (he.si i hc).elim hk (by omega)), h.si i hi hk]
  cx i hi hk := by
    rw [h'.cx i (Nat.lt_of_lt_of_le hi h.len.cx) (fun hc => (he.cx i hc).elim hk (by omega)), h.cx i hi hk]
  evals := by
    obtain ⟨n1, e1, h1⟩ := h.evals
    obtain ⟨n2, e2, h2⟩ := h'.evals
    refine ⟨n1 ++ n2, by rw [e2, e1, List.append_assoc], ?_⟩
    intro p hp
    rcases List.mem_append.1 hp with hp | hp
    · exact h1 p hp
    · rcases h2 p hp with h3 | h3 | h3
      · rcases he.gs _ h3 with h4 | h4
        · exact Or.inl h4
        · exact Or.inr (Or.inl h4)
      · exact Or.inr (Or.inl (Nat.le_trans h.len.sc h3))
      · exact Or.inr (Or.inr h3)

/-- Of the row singled out each column evaluated so far (not counting the `b k` evaluations of
column `k` before) was evaluated once, and its value is in the cache. -/
def Seen (b : Str → Nat) (c ns : Nat) (st : St F S) : Prop :=
  ∃ r, st.rows[c]? = some r ∧
    ∀ k, st.evals.count (k, ns) = b k +
      match r.getter k with
      | some (.col _ _ _) => if (OD.get r.cache k).isSome then 1 else 0
      | _ => 0

/-- What happens to the row singled out. -/
def Kept (X : Option (Nat × Nat)) (st st' : St F S) : Prop :=
  ∀ b c ns, X = some (c, ns) → Seen b c ns st → Seen b c ns st'

/-- A column of the row singled out: a value, or an expression evaluated in the scope singled
out and recorded under the name of the column. -/
def SpCol (J : Know) (ns : Nat) (p : Str × Getter F) : Prop :=
  match p.2 with
  | .const v => VW J v
  | .col _ n i => n = p.1 ∧ i = ns

/-- The situation in which a program runs: `K` is what it knows, `J` a smaller closed part of
the heap that contains the scope but not the row singled out. -/
structure Wd (gr : Bool) (X : Option (Nat × Nat)) (K J : Know) (st : St F S) : Prop where
  gr : gr = true ∨ J = Know.none
  closed : Closed K st
  closedJ : Closed J st
  le : J.Le K
  rg : ∀ c, K.rw c → K.rg c ∨ ∃ ns, X = some (c, ns)
  rgJ : ∀ c, J.rw c → J.rg c
  sp : ∀ c ns, X = some (c, ns) → J.sc ns ∧ ¬K.gs ns ∧ ¬J.rw c ∧ ¬K.rg c ∧
    ∃ r, st.rows[c]? = some r ∧ ∀ p ∈ r.cols, SpCol J ns p

/-- What aggregate functions keep refers to nothing. -/
def PlainCtx (st : St F S) : Prop := ∀ x ∈ st.ctxs, CtxW (F := F) Know.none x

/-- Columns were evaluated in existing scopes. -/
def EvalsOld (st : St F S) : Prop := ∀ p ∈ st.evals, p.2 < st.scopes.length

/-- The effect of running a program. -/
structure Tr (gp gr : Bool) (X : Option (Nat × Nat)) (K J : Know) (st : St F S) (K' J' : Know) (st' : St F S) : Prop where
  wd : Wd gr X K' J' st'
  ext : KExt st K K'
  extJ : KExt st J J'
  same : Same X K st st'
  kept : Kept X st st'
  plain : gp = true → PlainCtx st → PlainCtx st'
  evs : EvalsOld st → EvalsOld st'

theorem Tr.refl {gp gr : Bool} {X : Option (Nat × Nat)} {K J : Know} {st : St F S} (h : Wd gr X K J st) : Tr gp gr X K J st K J st :=
  ⟨h, KExt.refl _ _, KExt.refl _ _, Same.refl _ _ _, fun _ _ _ _ h => h, fun _ h => h, fun h => h⟩

theorem Tr.trans {gp gr : Bool} {X : Option (Nat × Nat)} {K J K1 J1 K2 J2 : Know} {a b c : St F S}
    (h : Tr gp gr X K J a K1 J1 b) (h' : Tr gp gr X K1 J1 b K2 J2 c) : Tr gp gr X K J a K2 J2 c :=
  ⟨h'.wd, h.ext.trans h.same.len h'.ext, h.extJ.trans h.same.len h'.extJ, h.same.trans h.ext h'.same,
    fun b c ns hx hs => h'.kept b c ns hx (h.kept b c ns hx hs), fun hg hp => h'.plain hg (h.plain hg hp),
    fun hp => h'.evs (h.evs hp)⟩

/-! ## Programs -/

/-- A key of `Associative`. -/
def KeyW (K : Know) : Key F Obj → Prop
  | .val v => VW K v
  | .range _ _ => True

/-- The arguments of the call are known. -/
def CallW (K : Know) : Call F → Prop
  | .and _ s | .or _ s | .cond _ s | .add _ s | .mul _ s | .member _ s | .comma _ s | .value _ s | .sym _ s
  | .col _ s | .resolve s _ | .select _ s | .plugin _ s => K.sc s
  | .negate v s | .members v s | .evalSymbolWithArgs _ v s | .evalSymbol v s | .evalQuery v s => VW K v ∧ K.sc s
  | .getter g => GW K g
  | .rowGet c _ => K.rw c
  | .lazyWith c s => K.lz c ∧ K.sc s
  | .lazyReduce c => K.lz c
  | .assoc a k s => VW K a ∧ KeyW K k ∧ K.sc s

/-- A list of known values. -/
def QL (K : Know) (l : List (V F)) : Prop := ∀ v ∈ l, VW K v
/-- A dict of known values. -/
def QD (K : Know) (d : OD (V F)) : Prop := ∀ p ∈ d, VW K p.2
/-- An optional known value. -/
def QO (K : Know) (o : Option (V F)) : Prop := ∀ v, o = some v → VW K v
/-- A possibly nil value with a presence flag. -/
def QA (K : Know) (r : Option (V F) × Bool) : Prop := QO K r.1
/-- No condition. -/
def QT {α : Type} (_ : Know) (_ : α) : Prop := True

theorem QL.mono {K L : Know} (h : K.Le L) {l : List (V F)} (hl : QL K l) : QL L l := fun v hv => (hl v hv).mono h
theorem QD.mono {K L : Know} (h : K.Le L) {d : OD (V F)} (hd : QD K d) : QD L d := fun v hv => (hd v hv).mono h
theorem QO.mono {K L : Know} (h : K.Le L) {o : Option (V F)} (ho : QO K o) : QO L o := fun v hv => (ho v hv).mono h
theorem QA.mono {K L : Know} (h : K.Le L) {o : Option (V F) × Bool} (ho : QA K o) : QA L o := QO.mono h ho
theorem QO.getD {K : Know} {o : Option (V F)} (h : QO K o) : VW K (o.getD .null) := by
  cases o with
  | none => simp
  | some v => exact h v rfl

theorem QA.getD {K : Know} {e : Option (V F)} {b : Bool} (h : QA K (e, b)) : VW K (e.getD .null) := QO.getD h

theorem QD.set {K : Know} {d : OD (V F)} (hd : QD K d) (k : Str) {v : V F} (hv : VW K v) : QD K (OD.set d k v) := by
  intro p hp
  simp only [OD.set, OD.erase, List.mem_append, List.mem_filter, List.mem_singleton] at hp
  rcases hp with hp | rfl
  · exact hd p hp.1
  · exact hv

theorem QD.get {K : Know} {d : OD (V F)} (hd : QD K d) {k : Str} {v : V F} (h : OD.get d k = some v) : VW K v :=
  hd _ (OD.mem_of_get h)

theorem QL.snoc {K : Know} {l : List (V F)} (hl : QL K l) {v : V F} (hv : VW K v) : QL K (l ++ [v]) := by
  intro x hx
  rcases List.mem_append.1 hx with h | h
  · exact hl x h
  · rw [List.mem_singleton.1 h]; exact hv

theorem QL.append {K : Know} {l l' : List (V F)} (hl : QL K l) (hl' : QL K l') : QL K (l ++ l') := by
  intro x hx
  rcases List.mem_append.1 hx with h | h
  · exact hl x h
  · exact hl' x h

/-- The result of the call is known. -/
def RetW (K : Know) : (c : Call F) → c.Ret → Prop
  | .rowGet _ _, r => QA K r
  | .resolve _ _, r => QA K r
  | .assoc _ _ _, r => QA K r
  | .members _ _, _ => True
  | .select _ _, r => QL K r
  | .plugin _ _, r => QL K r
  | .evalSymbolWithArgs _ _ _, r => QL K r
  | .evalSymbol _ _, r => QL K r
  | .evalQuery _ _, r => QL K r
  | .and _ _, r | .or _ _, r | .cond _ _, r | .add _ _, r | .mul _ _, r | .member _ _, r | .comma _ _, r
  | .value _ _, r | .sym _ _, r | .negate _ _, r | .col _ _, r | .getter _, r | .lazyWith _ _, r
  | .lazyReduce _, r => VW K r

theorem RetW.mono {K L : Know} (h : K.Le L) {c : Call F} {r : c.Ret} (hr : RetW K c r) : RetW L c r := by
  cases c <;> first | trivial | exact VW.mono h hr | exact QL.mono h hr | exact QA.mono h hr

theorem KeyW.mono {K L : Know} (h : K.Le L) {k : Key F Obj} (hk : KeyW K k) : KeyW L k := by
  cases k <;> first | trivial | exact VW.mono h hk

theorem CallW.mono {K L : Know} (h : K.Le L) {c : Call F} (hc : CallW K c) : CallW L c := by
  cases c <;> first
    | exact h.sc hc | exact ⟨hc.1.mono h, h.sc hc.2⟩ | exact GW.mono h hc | exact h.rw hc
    | exact ⟨h.lz hc.1, h.sc hc.2⟩ | exact h.lz hc | exact ⟨hc.1.mono h, hc.2.1.mono h, h.sc hc.2.2⟩

/-- What an operation on an aggregator context may do: its result and what it stores is known,
or (if `gr` is set) comes from the context itself. -/
def AgW (gr : Bool) (K : Know) (f : AggCtx F Obj → V F × AggCtx F Obj) : Prop :=
  ∀ L : Know, (gr = false → K.Le L) → ∀ ctx, CtxW L ctx → VW L (f ctx).1 ∧ CtxW L (f ctx).2

theorem AgW.mono {gr : Bool} {K L : Know} (h : K.Le L) {f : AggCtx F Obj → V F × AggCtx F Obj}
    (hf : AgW gr K f) : AgW gr L f := fun M hM => hf M (fun hg => h.trans (hM hg))

/-- The program uses known indices only; its result satisfies `Q`.  `o` are the scopes it
created itself. -/
def Prog.Within (gr : Bool) {α : Type} (Q : Know → α → Prop) : Prog F S α → Know → List Nat → Prop
  | .ret a, K, _ => Q K a
  | .call c k, K, o => CallW K c ∧ ∀ L r, K.Le L → RetW L c r → (k r).Within gr Q L o
  | .prim (.copy s) k, K, o =>
    K.sc s ∧ ∀ L i, K.Le L → L.sc i → L.gs i → (k i).Within gr Q L (i :: o)
  | .prim (.append s v) k, K, o => s ∈ o ∧ VW K v ∧ (k ()).Within gr Q K o
  | .prim (.newAg s) k, K, o => s ∈ o ∧ ∀ L : Know, K.Le L → (k ()).Within gr Q L o
  | .prim .mkCtx k, K, o => ∀ L i, K.Le L → L.cx i → (k i).Within gr Q L o
  | .prim (.setAg s c) k, K, o => s ∈ o ∧ K.cx c ∧ (k ()).Within gr Q K o
  | .prim (.ag s f) k, K, o => K.sc s ∧ AgW gr K f ∧ ∀ L v, K.Le L → VW L v → (k v).Within gr Q L o
  | .prim (.vars s) k, K, o => K.sc s ∧ ∀ L l, K.Le L → QL L l → (k l).Within gr Q L o
  | .prim (.depth _) k, K, o => ∀ d, (k d).Within gr Q K o
  | .prim (.newLazy _ s) k, K, o => K.sc s ∧ ∀ L i, K.Le L → L.lz i → (k i).Within gr Q L o
  | .prim (.lazyInfo c) k, K, o => K.lz c ∧ ∀ L l, K.Le L → LazyW L l → (k (some l)).Within gr Q L o
  | .prim (.newRow cols) k, K, o => QG K cols ∧ ∀ L i, K.Le L → L.rw i → L.rg i → (k i).Within gr Q L o
  | .prim (.rowInfo c) k, K, o => K.rw c ∧
      ∀ (L : Know) (r : RowCell F), K.Le L → (∀ p ∈ r.cache, VW L p.2) → (K.rg c → QG L r.cols) →
        (k (some r)).Within gr Q L o
  | .prim (.newSite q s) k, K, o =>
    VW K q ∧ K.sc s ∧ ∀ L i, K.Le L → L.si i → (k i).Within gr Q L o
  | .prim (.siteInfo c) k, K, o => K.si c ∧ ∀ L x, K.Le L → SiteW L x → (k (some x)).Within gr Q L o
  | .prim (.split _) k, K, o => ∀ b, (k b).Within gr Q K o
  | .prim (.fnOf _ _) k, K, o => ∀ n, (k n).Within gr Q K o
  | .prim (.log _) k, K, o => (k ()).Within gr Q K o
  | .prim (.eval _ s) k, K, o => K.gs s ∧ (k ()).Within gr Q K o
  | .prim (.host f) k, K, o =>
    (∀ h, VW Know.none (f h).1) ∧ ∀ v, VW Know.none v → (k v).Within gr Q K o
  | .prim (.lazySet _ _) _, _, _ => False
  | .prim (.rowSet _ _ _) _, _, _ => False

/-- The property of the result is kept when more is known. -/
def Mono {α : Type} (Q : Know → α → Prop) : Prop := ∀ K L a, K.Le L → Q K a → Q L a

variable {gr : Bool}

theorem Prog.Within.mono {α : Type} {Q : Know → α → Prop} (hQ : Mono Q) {p : Prog F S α} :
    ∀ {K L : Know} {o o' : List Nat}, p.Within gr Q K o → K.Le L → (∀ i ∈ o, i ∈ o') →
      p.Within gr Q L o' := by
  have hcons : ∀ {l l' : List Nat} (i : Nat), (∀ j ∈ l, j ∈ l') → ∀ j ∈ i :: l, j ∈ i :: l' := by
    intro l l' i h j hj
    rcases List.mem_cons.1 hj with rfl | hj
    · exact List.mem_cons_self
    · exact List.mem_cons_of_mem _ (h j hj)
  induction p with
  | ret a => intro K L o o' h hL _; exact hQ _ _ _ hL h
  | call c k ih =>
    intro K L o o' h hL ho
    exact ⟨h.1.mono hL, fun M r hM hret => ih r (h.2 M r (hL.trans hM) hret) (Know.Le.refl M) ho⟩
  | prim p k ih =>
    intro K L o o' h hL ho
    cases p with
    | copy s =>
      exact ⟨hL.sc h.1, fun M i hM h1 h2 => ih i (h.2 M i (hL.trans hM) h1 h2) (Know.Le.refl M) (hcons i ho)⟩
    | append s v => exact ⟨ho _ h.1, h.2.1.mono hL, ih () h.2.2 hL ho⟩
    | newAg s => exact ⟨ho _ h.1, fun M hM => ih () (h.2 M (hL.trans hM)) (Know.Le.refl M) ho⟩
    | mkCtx => exact fun M i hM h1 => ih i (h M i (hL.trans hM) h1) (Know.Le.refl M) ho
    | setAg s c => exact ⟨ho _ h.1, hL.cx h.2.1, ih () h.2.2 hL ho⟩
    | ag s f =>
      exact ⟨hL.sc h.1, h.2.1.mono hL, fun M v hM h1 => ih v (h.2.2 M v (hL.trans hM) h1) (Know.Le.refl M) ho⟩
    | vars s => exact ⟨hL.sc h.1, fun M v hM h1 => ih v (h.2 M v (hL.trans hM) h1) (Know.Le.refl M) ho⟩
    | depth s => exact fun d => ih d (h d) hL ho
    | newLazy e s =>
      exact ⟨hL.sc h.1, fun M i hM h1 => ih i (h.2 M i (hL.trans hM) h1) (Know.Le.refl M) ho⟩
    | lazyInfo c =>
      exact ⟨hL.lz h.1, fun M l hM h1 => ih (some l) (h.2 M l (hL.trans hM) h1) (Know.Le.refl M) ho⟩
    | newRow cols =>
      exact ⟨QG.mono hL h.1, fun M i hM h1 h2 => ih i (h.2 M i (hL.trans hM) h1 h2) (Know.Le.refl M) ho⟩
    | rowInfo c =>
      exact ⟨hL.rw h.1, fun M r hM h1 h2 =>
        ih (some r) (h.2 M r (hL.trans hM) h1 (fun hc => h2 (hL.rg hc))) (Know.Le.refl M) ho⟩
    | newSite q s =>
      exact ⟨h.1.mono hL, hL.sc h.2.1,
        fun M i hM h1 => ih i (h.2.2 M i (hL.trans hM) h1) (Know.Le.refl M) ho⟩
    | siteInfo c =>
      exact ⟨hL.si h.1, fun M x hM h1 => ih (some x) (h.2 M x (hL.trans hM) h1) (Know.Le.refl M) ho⟩
    | split n => exact fun b => ih b (h b) hL ho
    | fnOf n m => exact fun b => ih b (h b) hL ho
    | log m => exact ih () h hL ho
    | eval n s => exact ⟨hL.gs h.1, ih () h.2 hL ho⟩
    | host f => exact ⟨h.1, fun v hv => ih v (h.2 v hv) hL ho⟩
    | lazySet c v => exact h.elim
    | rowSet c k v => exact h.elim

theorem Prog.Within.imp {α : Type} {Q Q' : Know → α → Prop} (hQ : ∀ K a, Q K a → Q' K a) {p : Prog F S α} {K : Know}
    {o : List Nat} (h : p.Within gr Q K o) : p.Within gr Q' K o := by
  induction p generalizing K o with
  | ret a => exact hQ _ _ h
  | call c k ih => exact ⟨h.1, fun M r hM hret => ih r (h.2 M r hM hret)⟩
  | prim p k ih =>
    cases p with
    | copy s => exact ⟨h.1, fun M i hM h1 h2 => ih i (h.2 M i hM h1 h2)⟩
    | append s v => exact ⟨h.1, h.2.1, ih () h.2.2⟩
    | newAg s => exact ⟨h.1, fun M hM => ih () (h.2 M hM)⟩
    | mkCtx => exact fun M i hM h1 => ih i (h M i hM h1)
    | setAg s c => exact ⟨h.1, h.2.1, ih () h.2.2⟩
    | ag s f => exact ⟨h.1, h.2.1, fun M v hM h1 => ih v (h.2.2 M v hM h1)⟩
    | vars s => exact ⟨h.1, fun M v hM h1 => ih v (h.2 M v hM h1)⟩
    | depth s => exact fun d => ih d (h d)
    | newLazy e s => exact ⟨h.1, fun M i hM h1 => ih i (h.2 M i hM h1)⟩
    | lazyInfo c => exact ⟨h.1, fun M i hM h1 => ih (some i) (h.2 M i hM h1)⟩
    | newRow cols => exact ⟨h.1, fun M i hM h1 h2 => ih i (h.2 M i hM h1 h2)⟩
    | rowInfo c => exact ⟨h.1, fun M i hM h1 h2 => ih (some i) (h.2 M i hM h1 h2)⟩
    | newSite q s => exact ⟨h.1, h.2.1, fun M i hM h1 => ih i (h.2.2 M i hM h1)⟩
    | siteInfo c => exact ⟨h.1, fun M i hM h1 => ih (some i) (h.2 M i hM h1)⟩
    | split n => exact fun b => ih b (h b)
    | fnOf n m => exact fun b => ih b (h b)
    | log m => exact ih () h
    | eval n s => exact ⟨h.1, ih () h.2⟩
    | host f => exact ⟨h.1, fun v hv => ih v (h.2 v hv)⟩
    | lazySet c v => exact h.elim
    | rowSet c k v => exact h.elim

theorem Prog.Within.bind {α β : Type} {Q : Know → α → Prop} {Q' : Know → β → Prop} (hQ : Mono Q')
    {p : Prog F S α} {f : α → Prog F S β} : ∀ {K : Know} {o : List Nat}, p.Within gr Q K o →
      (∀ L a, K.Le L → Q L a → (f a).Within gr Q' L o) → (p >>= f).Within gr Q' K o := by
  have hmem : ∀ {l : List Nat} (i : Nat), ∀ j ∈ l, j ∈ i :: l := fun i j hj => List.mem_cons_of_mem _ hj
  induction p with
  | ret a => intro K o h hf; exact hf K a (Know.Le.refl K) h
  | call c k ih =>
    intro K o h hf
    exact ⟨h.1, fun M r hM hret => ih r (h.2 M r hM hret) (fun N a hN ha => hf N a (hM.trans hN) ha)⟩
  | prim p k ih =>
    intro K o h hf
    cases p with
    | copy s =>
      exact ⟨h.1, fun M i hM h1 h2 => ih i (h.2 M i hM h1 h2) (fun N a hN ha =>
        (hf N a (hM.trans hN) ha).mono hQ (Know.Le.refl N) (hmem i))⟩
    | append s v => exact ⟨h.1, h.2.1, ih () h.2.2 hf⟩
    | newAg s => exact ⟨h.1, fun M hM => ih () (h.2 M hM) (fun N a hN ha => hf N a (hM.trans hN) ha)⟩
    | mkCtx => exact fun M i hM h1 => ih i (h M i hM h1) (fun N a hN ha => hf N a (hM.trans hN) ha)
    | setAg s c => exact ⟨h.1, h.2.1, ih () h.2.2 hf⟩
    | ag s f =>
      exact ⟨h.1, h.2.1, fun M v hM h1 => ih v (h.2.2 M v hM h1) (fun N a hN ha => hf N a (hM.trans hN) ha)⟩
    | vars s => exact ⟨h.1, fun M v hM h1 => ih v (h.2 M v hM h1) (fun N a hN ha => hf N a (hM.trans hN) ha)⟩
    | depth s => exact fun d => ih d (h d) hf
    | newLazy e s => exact ⟨h.1, fun M i hM h1 => ih i (h.2 M i hM h1) (fun N a hN ha => hf N a (hM.trans hN) ha)⟩
    | lazyInfo c =>
      exact ⟨h.1, fun M i hM h1 => ih (some i) (h.2 M i hM h1) (fun N a hN ha => hf N a (hM.trans hN) ha)⟩
    | newRow cols =>
      exact ⟨h.1, fun M i hM h1 h2 => ih i (h.2 M i hM h1 h2) (fun N a hN ha => hf N a (hM.trans hN) ha)⟩
    | rowInfo c =>
      exact ⟨h.1, fun M i hM h1 h2 => ih (some i) (h.2 M i hM h1 h2) (fun N a hN ha => hf N a (hM.trans hN) ha)⟩
    | newSite q s =>
      exact ⟨h.1, h.2.1, fun M i hM h1 => ih i (h.2.2 M i hM h1) (fun N a hN ha => hf N a (hM.trans hN) ha)⟩
    | siteInfo c =>
      exact ⟨h.1, fun M i hM h1 => ih (some i) (h.2 M i hM h1) (fun N a hN ha => hf N a (hM.trans hN) ha)⟩
    | split n => exact fun b => ih b (h b) hf
    | fnOf n m => exact fun b => ih b (h b) hf
    | log m => exact ih () h hf
    | eval n s => exact ⟨h.1, ih () h.2 hf⟩
    | host g => exact ⟨h.1, fun v hv => ih v (h.2 v hv) hf⟩
    | lazySet c v => exact h.elim
    | rowSet c k v => exact h.elim

/-! ## Heap accesses -/

/-- Also scope `i` is known. -/
def Know.addSc (K : Know) (i : Nat) : Know := 
  { K with sc := fun j => K.sc j ∨ j = i, gs := fun j => K.gs j ∨ j = i, pa := fun j => K.pa j ∨ j = i }
/-- Also context `i` is known. -/
def Know.addCx (K : Know) (i : Nat) : Know := { K with cx := fun j => K.cx j ∨ j = i }
/-- Also lazy expression `i` is known. -/
def Know.addLz (K : Know) (i : Nat) : Know := { K with lz := fun j => K.lz j ∨ j = i }
/-- Also lazy row `i` is known. -/
def Know.addRw (K : Know) (i : Nat) : Know := { K with rw := fun j => K.rw j ∨ j = i, rg := fun j => K.rg j ∨ j = i }
/-- Also call site `i` is known. -/
def Know.addSi (K : Know) (i : Nat) : Know := { K with si := fun j => K.si j ∨ j = i }

theorem Know.le_addSc (K : Know) (i : Nat) : K.Le (K.addSc i) := ⟨Or.inl, Or.inl, Or.inl, id, id, id, id, id⟩
theorem Know.le_addCx (K : Know) (i : Nat) : K.Le (K.addCx i) := ⟨id, id, id, id, id, id, id, Or.inl⟩
theorem Know.le_addLz (K : Know) (i : Nat) : K.Le (K.addLz i) := ⟨id, id, id, Or.inl, id, id, id, id⟩
theorem Know.le_addRw (K : Know) (i : Nat) : K.Le (K.addRw i) := ⟨id, id, id, id, Or.inl, Or.inl, id, id⟩
theorem Know.le_addSi (K : Know) (i : Nat) : K.Le (K.addSi i) := ⟨id, id, id, id, id, id, Or.inl, id⟩

theorem KExt.addSc (st : St F S) (K : Know) : KExt st K (K.addSc st.scopes.length) :=
  { KExt.refl st K with
    le := K.le_addSc _
    sc := fun i h => h.imp id (by omega)
    gs := fun i h => h.imp id (by omega)
    pa := fun i h => h.imp id (by omega) }
theorem KExt.addCx (st : St F S) (K : Know) : KExt st K (K.addCx st.ctxs.length) :=
  { KExt.refl st K with
    le := K.le_addCx _
    cx := fun i h => h.imp id (by omega) }
theorem KExt.addLz (st : St F S) (K : Know) : KExt st K (K.addLz st.lazies.length) :=
  { KExt.refl st K with
    le := K.le_addLz _
    lz := fun i h => h.imp id (by omega) }
theorem KExt.addRw (st : St F S) (K : Know) : KExt st K (K.addRw st.rows.length) :=
  { KExt.refl st K with
    le := K.le_addRw _
    rw := fun i h => h.imp id (by omega)
    rg := fun i h => h.imp id (by omega) }
theorem KExt.addSi (st : St F S) (K : Know) : KExt st K (K.addSi st.sites.length) :=
  { KExt.refl st K with
    le := K.le_addSi _
    si := fun i h => h.imp id (by omega) }

theorem Kept.of_eq {X : Option (Nat × Nat)} {st st' : St F S} 
    (hr : ∀ (i : Nat) (r : RowCell F), st.rows[i]? = some r → st'.rows[i]? = some r)
    (he : st'.evals = st.evals) : Kept X st st' := by
  rintro b c ns _ ⟨r, h1, h2⟩
  exact ⟨r, hr _ _ h1, by rw [he]; exact h2⟩

theorem Closed.scp {K : Know} {st : St F S} (h : Closed K st) {i : Nat} (hi : K.sc i) : ScpW K (st.scp i) := by
  obtain ⟨x, hx, hw⟩ := h.sc i hi
  simp only [St.scp, hx, Option.getD_some]
  exact hw

theorem Closed.scpa {K : Know} {st : St F S} (h : Closed K st) {i : Nat} (hi : K.pa i) : PaW K (st.scp i) := by
  obtain ⟨x, hx, hw⟩ := h.pa i hi
  simp only [St.scp, hx, Option.getD_some]
  exact hw

theorem Closed.agHolder {K : Know} {st : St F S} (h : Closed K st) : ∀ (n s : Nat), K.pa s → K.pa (st.agHolder n s)
  | 0, s, hs => hs
  | n + 1, s, hs => by
    unfold St.agHolder
    split
    · exact hs
    · split
      · rename_i p hp
        exact h.agHolder n p ((h.scpa hs).parent p hp)
      · exact hs

variable {gp : Bool} {X : Option (Nat × Nat)} {K J : Know} {st : St F S}

/-- A step that only touches the host state, the log or the caches of syntax nodes. -/
theorem tr_inert (h : Wd gr X K J st) {st' : St F S} (h1 : st'.scopes = st.scopes) (h2 : st'.ctxs = st.ctxs)
    (h3 : st'.lazies = st.lazies) (h4 : st'.rows = st.rows) (h5 : st'.sites = st.sites)
    (h6 : ∃ new, st'.evals = st.evals ++ new ∧ ∀ p ∈ new, K.gs p.2) : Tr gp gr X K J st K J st' where
  wd := ⟨h.gr, ⟨h1 ▸ h.closed.sc, h.closed.gs, h1 ▸ h.closed.pa, h.closed.sp, h3 ▸ h.closed.lz, h4 ▸ h.closed.rw, h4 ▸ h.closed.rg,
      h5 ▸ h.closed.si, h2 ▸ h.closed.cx⟩,
    ⟨h1 ▸ h.closedJ.sc, h.closedJ.gs, h1 ▸ h.closedJ.pa, h.closedJ.sp, h3 ▸ h.closedJ.lz, h4 ▸ h.closedJ.rw, h4 ▸ h.closedJ.rg,
      h5 ▸ h.closedJ.si, h2 ▸ h.closedJ.cx⟩, h.le, h.rg, h.rgJ, h4 ▸ h.sp⟩
  ext := KExt.refl _ _
  extJ := KExt.refl _ _
  same := by
    obtain ⟨new, e, hn⟩ := h6
    refine ⟨⟨by rw [h1]; exact Nat.le_refl _, by rw [h3]; exact Nat.le_refl _, by rw [h4]; exact Nat.le_refl _,
      by rw [h5]; exact Nat.le_refl _, by rw [h2]; exact Nat.le_refl _⟩, ?_, ?_, ?_, ?_, ?_, ?_, new, e, ?_⟩
    · intros; simp only [St.scp, h1]
    · intros; rw [h1]
    · intros; rw [h3]
    · intros; rw [h4]
    · intros; rw [h5]
    · intros; rw [h2]
    · exact fun p hp => Or.inl (hn p hp)
  kept := by
    obtain ⟨new, e, hn⟩ := h6
    rintro b c ns hx ⟨r, h7, h8⟩
    refine ⟨r, by rw [h4]; exact h7, fun k => ?_⟩
    have : new.count (k, ns) = 0 := by
      rw [List.count_eq_zero]
      intro hm
      exact (h.sp c ns hx).2.1 (hn _ hm)
    rw [e, List.count_append, this, Nat.add_zero, h8]
  plain _ hp := by
    unfold PlainCtx
    rw [h2]
    exact hp
  evs hp := by
    obtain ⟨new, e, hn⟩ := h6
    unfold EvalsOld
    rw [e, h1]
    intro p hm
    rcases List.mem_append.1 hm with hm | hm
    · exact hp p hm
    · exact h.closed.sc.lt (h.closed.gs _ (hn p hm))

theorem tr_copy (h : Wd gr X K J st) {s : Nat} (hs : K.sc s) :
    Tr gp gr X K J st (K.addSc st.scopes.length) J ((Prim.copy s : Prim F S).step st).2 where
  wd := by
    have hl := K.le_addSc st.scopes.length
    refine ⟨h.gr, ⟨h.closed.sc.push (fun x hx => hx.mono hl) ?_, ?_, h.closed.pa.push (fun x hx => hx.mono hl) ?_, ?_,
      h.closed.lz.mono (fun x hx => hx.mono hl),
      h.closed.rw.mono (fun x hx => hx.mono hl), h.closed.rg.mono (fun x hx => hx.mono hl),
      h.closed.si.mono (fun x hx => hx.mono hl), h.closed.cx.mono (fun x hx => hx.mono hl)⟩,
      ⟨h.closedJ.sc.grow, h.closedJ.gs, h.closedJ.pa.grow, h.closedJ.sp, h.closedJ.lz, h.closedJ.rw, h.closedJ.rg, h.closedJ.si, h.closedJ.cx⟩,
      h.le.trans hl, h.rg, h.rgJ, ?_⟩
    · exact fun v hv => (h.closed.scp hs v hv).mono hl
    · exact fun i hi => hi.imp (h.closed.gs i) id
    · exact ⟨fun p hp => by cases hp; exact Or.inl (h.closed.sp _ hs), fun c hc => by cases hc⟩
    · exact fun i hi => hi.imp (h.closed.sp i) id
    · intro c ns hx
      obtain ⟨h1, h2, h3⟩ := h.sp c ns hx
      refine ⟨h1, ?_, h3⟩
      rintro (h4 | h4)
      · exact h2 h4
      · have := h.closedJ.sc.lt h1
        omega
  ext := KExt.addSc st K
  extJ := KExt.refl _ _
  same := by
    refine ⟨⟨by simp [Prim.step], Nat.le_refl _, Nat.le_refl _, Nat.le_refl _, Nat.le_refl _⟩, ?_, ?_,
      fun _ _ _ => rfl, fun _ _ _ => rfl, fun _ _ _ => rfl, fun _ _ _ => rfl, [], by simp [Prim.step], by simp⟩
    · intro i hi _
      simp [Prim.step, St.scp, List.getElem?_append_left hi]
    · intro i hi _
      simp [Prim.step, List.getElem?_append_left hi]
  kept := Kept.of_eq (fun _ _ h => h) rfl
  plain _ hp := hp
  evs hp := fun p hm => Nat.lt_of_lt_of_le (hp p hm) (by simp [Prim.step, St.appendVar, St.setAg])

theorem scp_vars_set {st : St F S} {s i : Nat} {x : Scp F} (h : s = i → x.vars = (st.scp i).vars) :
    (St.scp { st with scopes := st.scopes.set s x } i).vars = (st.scp i).vars := by
  by_cases hsi : s = i
  · subst hsi
    by_cases hl : s < st.scopes.length
    · simp only [St.scp, List.getElem?_set_self hl, Option.getD_some]
      exact h rfl
    · rw [List.set_eq_of_length_le (by omega)]
  · simp only [St.scp, List.getElem?_set_ne hsi]

theorem tr_append (h : Wd gr X K J st) {s : Nat} (hs : K.sc s) (hj : ¬J.sc s) {v : V F} (hv : VW K v) :
    Tr gp gr X K J st K J (st.appendVar s v) where
  wd := ⟨h.gr, ⟨h.closed.sc.put (fun _ => QL.snoc (h.closed.scp hs) hv), h.closed.gs,
      h.closed.pa.put (fun hp => ⟨(h.closed.scpa hp).parent, (h.closed.scpa hp).ag⟩), h.closed.sp,
      h.closed.lz, h.closed.rw, h.closed.rg, h.closed.si, h.closed.cx⟩,
    ⟨h.closedJ.sc.put (fun hc => absurd hc hj), h.closedJ.gs,
      h.closedJ.pa.put (fun hp => ⟨(h.closedJ.scpa hp).parent, (h.closedJ.scpa hp).ag⟩), h.closedJ.sp,
      h.closedJ.lz, h.closedJ.rw, h.closedJ.rg,
      h.closedJ.si, h.closedJ.cx⟩, h.le, h.rg, h.rgJ, h.sp⟩
  ext := KExt.refl _ _
  extJ := KExt.refl _ _
  same := by
    refine ⟨⟨by simp [St.appendVar], Nat.le_refl _, Nat.le_refl _, Nat.le_refl _, Nat.le_refl _⟩, ?_, ?_,
      fun _ _ _ => rfl, fun _ _ _ => rfl, fun _ _ _ => rfl, fun _ _ _ => rfl, [], by simp [St.appendVar], by simp⟩
    · intro i hi hk
      exact scp_vars_set (fun he => absurd (he ▸ hs) hk)
    · intro i hi hk
      exact List.getElem?_set_ne (fun he : s = i => hk (he ▸ h.closed.sp s hs))
  kept := Kept.of_eq (fun _ _ h => h) rfl
  plain _ hp := hp
  evs hp := fun p hm => Nat.lt_of_lt_of_le (hp p hm) (by simp [Prim.step, St.appendVar, St.setAg])

theorem tr_setAg (h : Wd gr X K J st) {s c : Nat} (hs : K.pa s) (hj : J.pa s → J.cx c) (hc : K.cx c) :
    Tr gp gr X K J st K J (st.setAg s c) where
  wd := ⟨h.gr, ⟨h.closed.sc.put (fun hp => h.closed.scp hp), h.closed.gs,
      h.closed.pa.put (fun hp => ⟨(h.closed.scpa hp).parent, fun c' e => by cases e; exact hc⟩), h.closed.sp,
      h.closed.lz, h.closed.rw, h.closed.rg, h.closed.si, h.closed.cx⟩,
    ⟨h.closedJ.sc.put (fun hp => h.closedJ.scp hp), h.closedJ.gs,
      h.closedJ.pa.put (fun hp => ⟨(h.closedJ.scpa hp).parent, fun c' e => by cases e; exact hj hp⟩), h.closedJ.sp,
      h.closedJ.lz, h.closedJ.rw, h.closedJ.rg,
      h.closedJ.si, h.closedJ.cx⟩, h.le, h.rg, h.rgJ, h.sp⟩
  ext := KExt.refl _ _
  extJ := KExt.refl _ _
  same := by
    refine ⟨⟨by simp [St.setAg], Nat.le_refl _, Nat.le_refl _, Nat.le_refl _, Nat.le_refl _⟩, ?_, ?_,
      fun _ _ _ => rfl, fun _ _ _ => rfl, fun _ _ _ => rfl, fun _ _ _ => rfl, [], by simp [St.setAg], by simp⟩
    · intro i hi hk
      exact scp_vars_set (fun he => by subst he; rfl)
    · intro i hi hk
      exact List.getElem?_set_ne (fun he : s = i => hk (he ▸ hs))
  kept := Kept.of_eq (fun _ _ h => h) rfl
  plain _ hp := hp
  evs hp := fun p hm => Nat.lt_of_lt_of_le (hp p hm) (by simp [Prim.step, St.appendVar, St.setAg])

theorem tr_mkCtx (h : Wd gr X K J st) :
    Tr gp gr X K J st (K.addCx st.ctxs.length) J { st with ctxs := st.ctxs ++ [[]] } where
  wd := by
    have hl := K.le_addCx st.ctxs.length
    refine ⟨h.gr, ⟨h.closed.sc.mono (fun x hx => hx.mono hl), h.closed.gs,
      h.closed.pa.mono (fun x hx => hx.mono hl), h.closed.sp, h.closed.lz.mono (fun x hx => hx.mono hl),
      h.closed.rw.mono (fun x hx => hx.mono hl), h.closed.rg.mono (fun x hx => hx.mono hl),
      h.closed.si.mono (fun x hx => hx.mono hl), h.closed.cx.push (fun x hx => hx.mono hl) (by intro p hp; cases hp)⟩,
      ⟨h.closedJ.sc, h.closedJ.gs, h.closedJ.pa, h.closedJ.sp, h.closedJ.lz, h.closedJ.rw, h.closedJ.rg, h.closedJ.si, h.closedJ.cx.grow⟩,
      h.le.trans hl, h.rg, h.rgJ, h.sp⟩
  ext := KExt.addCx st K
  extJ := KExt.refl _ _
  same := by
    refine ⟨⟨Nat.le_refl _, Nat.le_refl _, Nat.le_refl _, Nat.le_refl _, by simp⟩, fun _ _ _ => rfl,
      fun _ _ _ => rfl, fun _ _ _ => rfl, fun _ _ _ => rfl, fun _ _ _ => rfl, ?_, [], by simp, by simp⟩
    intro i hi _
    simp [List.getElem?_append_left hi]
  kept := Kept.of_eq (fun _ _ h => h) rfl
  plain _ hp := by
    intro x hx
    rcases List.mem_append.1 hx with hx | hx
    · exact hp x hx
    · rw [List.mem_singleton.1 hx]
      exact fun p hp => nomatch hp
  evs hp := hp

theorem tr_newLazy (h : Wd gr X K J st) {e : AndE} {s : Nat} (hs : K.sc s) :
    Tr gp gr X K J st (K.addLz st.lazies.length) J ((Prim.newLazy e s : Prim F S).step st).2 where
  wd := by
    have hl := K.le_addLz st.lazies.length
    exact ⟨h.gr, ⟨h.closed.sc.mono (fun x hx => hx.mono hl), h.closed.gs,
      h.closed.pa.mono (fun x hx => hx.mono hl), h.closed.sp,
      h.closed.lz.push (fun x hx => hx.mono hl) ⟨hs, fun v hv => by cases hv⟩,
      h.closed.rw.mono (fun x hx => hx.mono hl), h.closed.rg.mono (fun x hx => hx.mono hl),
      h.closed.si.mono (fun x hx => hx.mono hl), h.closed.cx.mono (fun x hx => hx.mono hl)⟩,
      ⟨h.closedJ.sc, h.closedJ.gs, h.closedJ.pa, h.closedJ.sp, h.closedJ.lz.grow, h.closedJ.rw, h.closedJ.rg, h.closedJ.si, h.closedJ.cx⟩,
      h.le.trans hl, h.rg, h.rgJ, h.sp⟩
  ext := KExt.addLz st K
  extJ := KExt.refl _ _
  same := by
    refine ⟨⟨Nat.le_refl _, by simp [Prim.step], Nat.le_refl _, Nat.le_refl _, Nat.le_refl _⟩, fun _ _ _ => rfl, fun _ _ _ => rfl,
      ?_, fun _ _ _ => rfl, fun _ _ _ => rfl, fun _ _ _ => rfl, [], by simp [Prim.step], by simp⟩
    intro i hi _
    simp [Prim.step, List.getElem?_append_left hi]
  kept := Kept.of_eq (fun _ _ h => h) rfl
  plain _ hp := hp
  evs hp := hp

theorem tr_newSite (h : Wd gr X K J st) {q : V F} {s : Nat} (hq : VW K q) (hs : K.sc s) :
    Tr gp gr X K J st (K.addSi st.sites.length) J ((Prim.newSite q s : Prim F S).step st).2 where
  wd := by
    have hl := K.le_addSi st.sites.length
    exact ⟨h.gr, ⟨h.closed.sc.mono (fun x hx => hx.mono hl), h.closed.gs,
      h.closed.pa.mono (fun x hx => hx.mono hl), h.closed.sp,
      h.closed.lz.mono (fun x hx => hx.mono hl),
      h.closed.rw.mono (fun x hx => hx.mono hl), h.closed.rg.mono (fun x hx => hx.mono hl),
      h.closed.si.push (fun x hx => hx.mono hl) ⟨hq.mono hl, hs⟩, h.closed.cx.mono (fun x hx => hx.mono hl)⟩,
      ⟨h.closedJ.sc, h.closedJ.gs, h.closedJ.pa, h.closedJ.sp, h.closedJ.lz, h.closedJ.rw, h.closedJ.rg, h.closedJ.si.grow, h.closedJ.cx⟩,
      h.le.trans hl, h.rg, h.rgJ, h.sp⟩
  ext := KExt.addSi st K
  extJ := KExt.refl _ _
  same := by
    refine ⟨⟨Nat.le_refl _, Nat.le_refl _, Nat.le_refl _, by simp [Prim.step], Nat.le_refl _⟩, fun _ _ _ => rfl, fun _ _ _ => rfl,
      fun _ _ _ => rfl, fun _ _ _ => rfl, ?_, fun _ _ _ => rfl, [], by simp [Prim.step], by simp⟩
    intro i hi _
    simp [Prim.step, List.getElem?_append_left hi]
  kept := Kept.of_eq (fun _ _ h => h) rfl
  plain _ hp := hp
  evs hp := hp

theorem tr_newRow (h : Wd gr X K J st) {cols : List (Str × Getter F)} (hc : QG K cols) :
    Tr gp gr X K J st (K.addRw st.rows.length) J ((Prim.newRow cols : Prim F S).step st).2 where
  wd := by
    have hl := K.le_addRw st.rows.length
    refine ⟨h.gr, ⟨h.closed.sc.mono (fun x hx => hx.mono hl), h.closed.gs,
      h.closed.pa.mono (fun x hx => hx.mono hl), h.closed.sp,
      h.closed.lz.mono (fun x hx => hx.mono hl),
      h.closed.rw.push (fun x hx => hx.mono hl) (by intro p hp; cases hp),
      h.closed.rg.push (fun x hx => hx.mono hl) (hc.mono hl),
      h.closed.si.mono (fun x hx => hx.mono hl), h.closed.cx.mono (fun x hx => hx.mono hl)⟩,
      ⟨h.closedJ.sc, h.closedJ.gs, h.closedJ.pa, h.closedJ.sp, h.closedJ.lz, h.closedJ.rw.grow, h.closedJ.rg.grow, h.closedJ.si, h.closedJ.cx⟩,
      h.le.trans hl, ?_, h.rgJ, ?_⟩
    · rintro c (h1 | h1)
      · exact (h.rg c h1).imp Or.inl id
      · exact Or.inl (Or.inr h1)
    · intro c ns hx
      obtain ⟨h1, h2, h3, h4, r, h5, h6⟩ := h.sp c ns hx
      have hlt := (List.getElem?_eq_some_iff.1 h5).1
      refine ⟨h1, h2, h3, ?_, r, ?_, h6⟩
      · rintro (h7 | h7)
        · exact h4 h7
        · omega
      · simp [Prim.step, List.getElem?_append_left hlt, h5]
  ext := KExt.addRw st K
  extJ := KExt.refl _ _
  same := by
    refine ⟨⟨Nat.le_refl _, Nat.le_refl _, by simp [Prim.step], Nat.le_refl _, Nat.le_refl _⟩, fun _ _ _ => rfl, fun _ _ _ => rfl,
      fun _ _ _ => rfl, ?_, fun _ _ _ => rfl, fun _ _ _ => rfl, [], by simp [Prim.step], by simp⟩
    intro i hi _
    simp [Prim.step, List.getElem?_append_left hi]
  kept := by
    refine Kept.of_eq (fun i r h => ?_) rfl
    have hlt := (List.getElem?_eq_some_iff.1 h).1
    simp [Prim.step, List.getElem?_append_left hlt, h]
  plain _ hp := hp
  evs hp := hp

/-- A known aggregator context is changed. -/
theorem tr_ctx (h : Wd gr X K J st) {c : Nat} (hc : K.cx c) {x : AggCtx F Obj} (hx : CtxW K x)
    (hj : J.cx c → CtxW J x)
    (h0 : gp = true → PlainCtx st → CtxW Know.none x) : Tr gp gr X K J st K J { st with ctxs := st.ctxs.set c x } where
  wd := ⟨h.gr, ⟨h.closed.sc, h.closed.gs, h.closed.pa, h.closed.sp, h.closed.lz, h.closed.rw, h.closed.rg, h.closed.si,
      h.closed.cx.put (fun _ => hx)⟩,
    ⟨h.closedJ.sc, h.closedJ.gs, h.closedJ.pa, h.closedJ.sp, h.closedJ.lz, h.closedJ.rw, h.closedJ.rg,
      h.closedJ.si, h.closedJ.cx.put hj⟩, h.le, h.rg, h.rgJ, h.sp⟩
  ext := KExt.refl _ _
  extJ := KExt.refl _ _
  same := by
    refine ⟨⟨Nat.le_refl _, Nat.le_refl _, Nat.le_refl _, Nat.le_refl _, by simp⟩, fun _ _ _ => rfl,
      fun _ _ _ => rfl, fun _ _ _ => rfl, fun _ _ _ => rfl, fun _ _ _ => rfl, ?_, [], by simp, by simp⟩
    intro i hi hk
    exact List.getElem?_set_ne (fun he : c = i => hk (he ▸ hc))
  kept := Kept.of_eq (fun _ _ h => h) rfl
  plain hg hp := by
    intro y hy
    rcases List.mem_or_eq_of_mem_set hy with hy | rfl
    · exact hp y hy
    · exact h0 hg hp
  evs hp := hp

/-- A new aggregator context in the inner part. -/
theorem tr_mkCtx_inner (h : Wd gr X K J st) {hd : Nat} (hJ : J.pa hd) :
    Tr gp gr X K J st (K.addCx st.ctxs.length) (J.addCx st.ctxs.length) { st with ctxs := st.ctxs ++ [[]] } := by
  have t1 := tr_mkCtx (gp := gp) h
  have hlJ := J.le_addCx st.ctxs.length
  refine ⟨⟨?_, t1.wd.closed, ⟨h.closedJ.sc.mono (fun x hx => hx.mono hlJ), h.closedJ.gs,
    h.closedJ.pa.mono (fun x hx => hx.mono hlJ), h.closedJ.sp,
    h.closedJ.lz.mono (fun x hx => hx.mono hlJ), h.closedJ.rw.mono (fun x hx => hx.mono hlJ),
    h.closedJ.rg.mono (fun x hx => hx.mono hlJ), h.closedJ.si.mono (fun x hx => hx.mono hlJ),
    h.closedJ.cx.push (fun x hx => hx.mono hlJ) (by intro p hp; cases hp)⟩, ?_, h.rg, h.rgJ, ?_⟩,
    t1.ext, KExt.addCx st J, t1.same, t1.kept, t1.plain, t1.evs⟩
  · rcases h.gr with e | e
    · exact Or.inl e
    · rw [e] at hJ
      exact hJ.elim
  · exact ⟨h.le.sc, h.le.gs, h.le.pa, h.le.lz, h.le.rw, h.le.rg, h.le.si, fun hx => hx.imp h.le.cx id⟩
  · intro c ns hx
    obtain ⟨h1, h2, h3, h4, r, h5, h6⟩ := h.sp c ns hx
    exact ⟨h1, h2, h3, h4, r, h5, fun p hp => by
      have := h6 p hp
      unfold SpCol at this ⊢
      split
      · rename_i v hv
        rw [hv] at this
        exact VW.mono hlJ this
      · rename_i e n i hv
        rw [hv] at this
        exact this⟩

/-- Finding (or creating) the aggregator context of a scope. -/
theorem tr_getAg (h : Wd gr X K J st) {s : Nat} (hs : K.sc s) :
    ∃ K' J', Tr gp gr X K J st K' J' (st.getAg s).2 ∧ K'.cx (st.getAg s).1 := by
  unfold St.getAg
  simp only
  have hh := h.closed.agHolder (s + 1) s (h.closed.sp s hs)
  split
  · rename_i c hc
    exact ⟨K, J, Tr.refl h, (h.closed.scpa hh).ag c hc⟩
  · rename_i hc
    generalize hhd : st.agHolder (s + 1) s = hd at hh hc
    have t1 := tr_mkCtx (gp := gp) h
    by_cases hJ : J.pa hd
    · have t1' := tr_mkCtx_inner (gp := gp) h hJ
      have t2 := tr_setAg (gp := gp) t1'.wd (s := hd) (c := st.ctxs.length) hh (fun _ => Or.inr rfl) (Or.inr rfl)
      exact ⟨_, _, t1'.trans t2, Or.inr rfl⟩
    · have t2 := tr_setAg (gp := gp) t1.wd (s := hd) (c := st.ctxs.length) hh (fun h => absurd h hJ) (Or.inr rfl)
      exact ⟨_, _, t1.trans t2, Or.inr rfl⟩

theorem tr_ag (hg : gr = true → gp = true) (h : Wd gr X K J st) {s : Nat} (hs : K.sc s) {f : AggCtx F Obj → V F × AggCtx F Obj}
    (hf : AgW gp K f) :
    ∃ K' J', Tr gp gr X K J st K' J' ((Prim.ag s f : Prim F S).step st).2 ∧
      VW K' ((Prim.ag s f : Prim F S).step st).1 := by
  obtain ⟨K1, J1, t1, hc⟩ := tr_getAg (gp := gp) h hs
  have hst : (Prim.ag s f : Prim F S).step st =
    ((f (((st.getAg s).2.ctxs[(st.getAg s).1]?).getD [])).1, { (st.getAg s).2 with
      ctxs := (st.getAg s).2.ctxs.set (st.getAg s).1 (f (((st.getAg s).2.ctxs[(st.getAg s).1]?).getD [])).2 }) := rfl
  rw [hst]
  generalize (st.getAg s).1 = c at *
  generalize (st.getAg s).2 = st1 at *
  obtain ⟨x, hx, hw⟩ := t1.wd.closed.cx c hc
  rw [hx]
  simp only [Option.getD_some]
  have h1 := hf K1 (fun _ => t1.ext.le) x hw
  refine ⟨K1, J1, t1.trans (tr_ctx t1.wd hc h1.2 ?_ ?_), h1.1⟩
  rotate_left
  · intro e hp
    exact (hf Know.none (fun e' => by rw [e] at e'; cases e') x (hp x (List.mem_of_getElem? hx))).2
  intro hJ
  rcases t1.wd.gr with e | e
  · obtain ⟨y, hy, hwy⟩ := t1.wd.closedJ.cx c hJ
    rw [hx] at hy
    cases hy
    exact (hf J1 (fun e' => by rw [hg e] at e'; cases e') x hwy).2
  · rw [e] at hJ
    exact hJ.elim

/-! ## Running programs -/

/-- The scopes a program created itself. -/
def Own (o : List Nat) (K J : Know) (st : St F S) : Prop := ∀ i ∈ o, K.sc i ∧ ¬J.pa i

theorem Own.tr {o : List Nat} {K' J' : Know} {st' : St F S} (h : Own o K J st) (hw : Wd gr X K J st)
    (t : Tr gp gr X K J st K' J' st') : Own o K' J' st' := by
  intro i hi
  obtain ⟨h1, h2⟩ := h i hi
  refine ⟨t.ext.le.sc h1, fun hc => ?_⟩
  rcases t.extJ.pa i hc with h3 | h3
  · exact h2 h3
  · have := hw.closed.sc.lt h1
    omega

/-- What calls do: they behave as `Tr` says and return known values. -/
def RecOK (gp gr : Bool) (X : Option (Nat × Nat)) (rec : (c : Call F) → St F S → Option (c.Ret × St F S)) : Prop :=
  ∀ (c : Call F) (K J : Know) (st : St F S) (r : c.Ret) (st' : St F S), CallW K c → Wd gr X K J st →
    rec c st = some (r, st') → ∃ K' J', Tr gp gr X K J st K' J' st' ∧ RetW K' c r

/-- Running a program that stays within what it knows. -/
theorem within_interp {rec : (c : Call F) → St F S → Option (c.Ret × St F S)} (hg : gr = true → gp = true) (hrec : RecOK gp gr X rec)
    {α : Type} {Q : Know → α → Prop} (p : Prog F S α) : ∀ {K J : Know} {o : List Nat} {st st' : St F S} {a : α},
    p.Within gp Q K o → Wd gr X K J st → Own o K J st → interp rec p st = some (a, st') →
    ∃ K' J', Tr gp gr X K J st K' J' st' ∧ Q K' a := by
  induction p with
  | ret b =>
    intro K J o st st' a h hw ho hr
    simp only [interp, Option.some.injEq, Prod.mk.injEq] at hr
    obtain ⟨rfl, rfl⟩ := hr
    exact ⟨K, J, Tr.refl hw, h⟩
  | call c k ih =>
    intro K J o st st' a h hw ho hr
    simp only [interp] at hr
    cases hc : rec c st with
    | none => simp [hc] at hr
    | some x =>
      obtain ⟨v, st1⟩ := x
      simp only [hc] at hr
      obtain ⟨K1, J1, t1, h1⟩ := hrec c K J st v st1 h.1 hw hc
      obtain ⟨K2, J2, t2, h2⟩ := ih v (h.2 K1 v t1.ext.le h1) t1.wd (ho.tr hw t1) hr
      exact ⟨K2, J2, t1.trans t2, h2⟩
  | prim p k ih =>
    intro K J o st st' a h hw ho hr
    simp only [interp] at hr
    have fin : ∀ {K1 J1 : Know}, Tr gp gr X K J st K1 J1 (p.step st).2 → ∀ {o'}, Own o' K1 J1 (p.step st).2 →
        (k (p.step st).1).Within gp Q K1 o' → ∃ K' J', Tr gp gr X K J st K' J' st' ∧ Q K' a := by
      intro K1 J1 t1 o' ho' hk
      obtain ⟨K2, J2, t2, h2⟩ := ih _ hk t1.wd ho' hr
      exact ⟨K2, J2, t1.trans t2, h2⟩
    have hle := Know.Le.refl K
    cases p with
    | copy s =>
      have t := tr_copy (gp := gp) hw (s := s) h.1
      refine fin t (o' := st.scopes.length :: o) ?_ (h.2 _ _ t.ext.le (Or.inr rfl) (Or.inr rfl))
      intro i hi
      rcases List.mem_cons.1 hi with rfl | hi
      · exact ⟨Or.inr rfl, fun hc => by have := hw.closedJ.pa.lt hc; omega⟩
      · exact (ho.tr hw t) i hi
    | append s v =>
      have t := tr_append (gp := gp) hw (ho s h.1).1 (fun hc => (ho s h.1).2 (hw.closedJ.sp s hc)) h.2.1
      exact fin t (ho.tr hw t) h.2.2
    | newAg s =>
      have t1 := tr_mkCtx (gp := gp) hw
      have ho1 := ho.tr hw t1
      have t2 := tr_setAg (gp := gp) t1.wd (t1.wd.closed.sp s (ho1 s h.1).1) (fun hc => absurd hc (ho1 s h.1).2) (c := st.ctxs.length) (Or.inr rfl)
      have t := t1.trans t2
      exact fin t (ho.tr hw t) (h.2 _ t.ext.le)
    | mkCtx =>
      have t := tr_mkCtx (gp := gp) hw
      exact fin t (ho.tr hw t) (h _ _ t.ext.le (Or.inr rfl))
    | setAg s c =>
      have t := tr_setAg (gp := gp) hw (hw.closed.sp s (ho s h.1).1) (fun hc => absurd hc (ho s h.1).2) h.2.1
      exact fin t (ho.tr hw t) h.2.2
    | ag s f =>
      obtain ⟨K1, J1, t, hv⟩ := tr_ag hg hw h.1 h.2.1
      exact fin t (ho.tr hw t) (h.2.2 _ _ t.ext.le hv)
    | vars s => exact fin (Tr.refl hw) ho (h.2 K _ hle (hw.closed.scp h.1))
    | depth s => exact fin (Tr.refl hw) ho (h _)
    | newLazy e s =>
      have t := tr_newLazy (gp := gp) hw (e := e) h.1
      exact fin t (ho.tr hw t) (h.2 _ _ t.ext.le (Or.inr rfl))
    | lazyInfo c =>
      obtain ⟨l, hl, hlw⟩ := hw.closed.lz c h.1
      refine fin (Tr.refl hw) ho ?_
      show Prog.Within gp Q (k (st.lazies[c]?)) K o
      rw [hl]
      exact h.2 K l hle hlw
    | newRow cols =>
      have t := tr_newRow (gp := gp) hw h.1
      exact fin t (ho.tr hw t) (h.2 _ _ t.ext.le (Or.inr rfl) (Or.inr rfl))
    | rowInfo c =>
      obtain ⟨r, hr', hrw⟩ := hw.closed.rw c h.1
      refine fin (Tr.refl hw) ho ?_
      show Prog.Within gp Q (k (st.rows[c]?)) K o
      rw [hr']
      refine h.2 K r hle hrw (fun hg => ?_)
      obtain ⟨r2, h3, h4⟩ := hw.closed.rg c hg
      rw [hr'] at h3
      cases h3
      exact h4
    | newSite q s =>
      have t := tr_newSite (gp := gp) hw h.1 h.2.1
      exact fin t (ho.tr hw t) (h.2.2 _ _ t.ext.le (Or.inr rfl))
    | siteInfo c =>
      obtain ⟨x, hx, hxw⟩ := hw.closed.si c h.1
      refine fin (Tr.refl hw) ho ?_
      show Prog.Within gp Q (k (st.sites[c]?)) K o
      rw [hx]
      exact h.2 K x hle hxw
    | split n => exact fin (tr_inert hw rfl rfl rfl rfl rfl ⟨[], by simp [Prim.step], by simp⟩) ho (h _)
    | fnOf n m =>
      refine fin (J1 := J) ?_ (o' := o) ?_ (h _)
      · simp only [Prim.step]
        split
        · exact Tr.refl hw
        · exact tr_inert hw rfl rfl rfl rfl rfl ⟨[], by simp, by simp⟩
      · exact ho
    | log m => exact fin (tr_inert hw rfl rfl rfl rfl rfl ⟨[], by simp [Prim.step], by simp⟩) ho h
    | eval n s => exact fin (tr_inert hw rfl rfl rfl rfl rfl ⟨[(n, s)], rfl, by simp [h.1]⟩) ho h.2
    | host f => exact fin (tr_inert hw rfl rfl rfl rfl rfl ⟨[], by simp [Prim.step], by simp⟩) ho (h.2 _ (h.1 _))
    | lazySet c v => exact h.elim
    | rowSet c k v => exact h.elim

end
end Vfilter.Vql
