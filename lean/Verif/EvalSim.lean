import Verif.Eval
/-!
# Two executions side by side

`Corr` relates the heap objects of two executions: scopes, lazy expressions, lazy rows, call
sites and aggregator contexts.  Two values are related if they have the same shape and refer to
related objects (`VR`), two heaps if related objects have related contents (`StR`), and two
programs (`Sim`) if, started in related heaps, the second finishes whenever the first does, with
a related result and related heaps, where new objects may have become related.  Related syntax
trees (`AndR`, ...) have the same shape; their nodes may carry different identities and their
numbers may be written differently.  The caches of syntax nodes have to agree only where they
can be observed (`NdR`).

Functions and plugins whose programs do not respect the relation are left out by `Cfg.okFn` and
`Cfg.okPl`; with `Cfg.ag = false` aggregator contexts are not compared at all, and no aggregate
function may be used.
-/
set_option linter.all false

namespace Vfilter.Vql

/-- Two lists of the same length with related elements. -/
inductive All2 {α β : Type} (R : α → β → Prop) : List α → List β → Prop
  | nil : All2 R [] []
  | cons {a b l l'} : R a b → All2 R l l' → All2 R (a :: l) (b :: l')

/-- Two options, both absent or both present and related. -/
inductive Opt2 {α β : Type _} (R : α → β → Prop) : Option α → Option β → Prop
  | none : Opt2 R none none
  | some {a b} : R a b → Opt2 R (some a) (some b)

section
variable {α β γ δ : Type}

theorem All2.mono {R R' : α → β → Prop} (h : ∀ a b, R a b → R' a b) {l : List α} {l' : List β}
    (hl : All2 R l l') : All2 R' l l' := by
  induction hl with
  | nil => exact .nil
  | cons hab _ ih => exact .cons (h _ _ hab) ih

theorem Opt2.mono {R R' : α → β → Prop} (h : ∀ a b, R a b → R' a b) {l : Option α} {l' : Option β}
    (hl : Opt2 R l l') : Opt2 R' l l' := by
  cases hl with
  | none => exact .none
  | some hab => exact .some (h _ _ hab)

theorem All2.append {R : α → β → Prop} {a c : List α} {b d : List β} (h : All2 R a b)
    (h' : All2 R c d) : All2 R (a ++ c) (b ++ d) := by
  induction h with
  | nil => exact h'
  | cons hab _ ih => exact .cons hab ih

theorem All2.snoc {R : α → β → Prop} {l : List α} {l' : List β} {a : α} {b : β} (h : All2 R l l')
    (h' : R a b) : All2 R (l ++ [a]) (l' ++ [b]) := h.append (.cons h' .nil)

theorem All2.length {R : α → β → Prop} {l : List α} {l' : List β} (h : All2 R l l') :
    l.length = l'.length := by
  induction h with
  | nil => rfl
  | cons _ _ ih => simp [ih]

theorem All2.map {R : α → β → Prop} {R' : γ → δ → Prop} {f : α → γ} {g : β → δ} {l : List α}
    {l' : List β} (h : All2 R l l') (hf : ∀ a b, R a b → R' (f a) (g b)) :
    All2 R' (l.map f) (l'.map g) := by
  induction h with
  | nil => exact .nil
  | cons hab _ ih => exact .cons (hf _ _ hab) ih

theorem All2.reverse {R : α → β → Prop} {l : List α} {l' : List β} (h : All2 R l l') :
    All2 R l.reverse l'.reverse := by
  induction h with
  | nil => exact .nil
  | cons hab _ ih => simpa using ih.snoc hab

theorem All2.take {R : α → β → Prop} (n : Nat) {l : List α} {l' : List β} (h : All2 R l l') :
    All2 R (l.take n) (l'.take n) := by
  induction h generalizing n with
  | nil => simpa using All2.nil
  | cons hab _ ih =>
    cases n with
    | zero => exact .nil
    | succ n => exact .cons hab (ih n)

theorem All2.drop {R : α → β → Prop} (n : Nat) {l : List α} {l' : List β} (h : All2 R l l') :
    All2 R (l.drop n) (l'.drop n) := by
  induction h generalizing n with
  | nil => simpa using All2.nil
  | cons hab hr ih =>
    cases n with
    | zero => exact .cons hab hr
    | succ n => exact ih n

theorem All2.get {R : α → β → Prop} {l : List α} {l' : List β} (h : All2 R l l') (n : Nat) :
    Opt2 R l[n]? l'[n]? := by
  induction h generalizing n with
  | nil => simpa using Opt2.none
  | cons hab hr ih =>
    cases n with
    | zero => simpa using Opt2.some hab
    | succ n => simpa using ih n

theorem All2.filter {R : α → β → Prop} {p : α → Bool} {q : β → Bool} {l : List α} {l' : List β}
    (h : All2 R l l') (hp : ∀ a b, R a b → p a = q b) : All2 R (l.filter p) (l'.filter q) := by
  induction h with
  | nil => exact .nil
  | @cons a b _ _ hab _ ih =>
    rw [List.filter_cons, List.filter_cons, hp a b hab]
    by_cases hq : q b = true
    · rw [if_pos hq, if_pos hq]
      exact .cons hab ih
    · rw [if_neg hq, if_neg hq]
      exact ih

theorem All2.find {R : α → β → Prop} {p : α → Bool} {q : β → Bool} {l : List α} {l' : List β}
    (h : All2 R l l') (hp : ∀ a b, R a b → p a = q b) : Opt2 R (l.find? p) (l'.find? q) := by
  induction h with
  | nil => exact .none
  | @cons a b _ _ hab _ ih =>
    rw [List.find?_cons, List.find?_cons, hp a b hab]
    cases q b with
    | true => exact .some hab
    | false => exact ih

theorem All2.any {R : α → β → Prop} {p : α → Bool} {q : β → Bool} {l : List α} {l' : List β}
    (h : All2 R l l') (hp : ∀ a b, R a b → p a = q b) : l.any p = l'.any q := by
  induction h with
  | nil => rfl
  | @cons a b _ _ hab _ ih => rw [List.any_cons, List.any_cons, hp a b hab, ih]

theorem All2.refl {R : α → α → Prop} : ∀ {l : List α}, (∀ a ∈ l, R a a) → All2 R l l
  | [], _ => .nil
  | a :: l, h => .cons (h a (by simp)) (All2.refl (fun b hb => h b (by simp [hb])))

theorem All2.eq {l l' : List α} (h : All2 (fun a b => a = b) l l') : l = l' := by
  induction h with
  | nil => rfl
  | cons hab _ ih => rw [hab, ih]

end

/-- An entry of a dictionary: the same key, related values. -/
inductive EntR {α β : Type} (R : α → β → Prop) : Str × α → Str × β → Prop
  | mk {k v w} : R v w → EntR R (k, v) (k, w)

theorem EntR.key {α β : Type} {R : α → β → Prop} {p : Str × α} {q : Str × β} (h : EntR R p q) : p.1 = q.1 := by
  cases h; rfl

theorem EntR.val {α β : Type} {R : α → β → Prop} {p : Str × α} {q : Str × β} (h : EntR R p q) : R p.2 q.2 := by
  cases h with
  | mk h => exact h

theorem EntR.mono {α β : Type} {R R' : α → β → Prop} (h : ∀ a b, R a b → R' a b) {p : Str × α} {q : Str × β}
    (hp : EntR R p q) : EntR R' p q := by
  cases hp with
  | mk hv => exact .mk (h _ _ hv)

section
variable {α β : Type} {R : α → β → Prop}

theorem od_get_r {d : OD α} {d' : OD β} (h : All2 (EntR R) d d') (k : Str) :
    Opt2 R (OD.get d k) (OD.get d' k) := by
  induction h with
  | nil => exact .none
  | @cons a b _ _ hab _ ih =>
    cases hab with
    | mk hv =>
      simp only [OD.get]
      split
      · exact .some hv
      · exact ih

theorem od_set_r {d : OD α} {d' : OD β} (h : All2 (EntR R) d d') (k : Str) {v : α} {w : β}
    (hv : R v w) : All2 (EntR R) (OD.set d k v) (OD.set d' k w) := by
  unfold OD.set OD.erase
  refine (h.filter fun a b hab => ?_).snoc (.mk hv)
  rw [hab.key]

theorem od_update_r {d : OD α} {d' : OD β} (h : All2 (EntR R) d d') (k : Str) {v : α} {w : β}
    (hv : R v w) : All2 (EntR R) (OD.update d k v) (OD.update d' k w) := by
  unfold OD.update
  rw [h.any (p := fun p => decide (p.1 = k)) (q := fun p => decide (p.1 = k)) (fun a b hab => by rw [hab.key])]
  split
  · refine h.map fun a b hab => ?_
    rw [hab.key]
    split
    · exact .mk hv
    · exact hab
  · exact h.snoc (.mk hv)

theorem od_keys_r {d : OD α} {d' : OD β} (h : All2 (EntR R) d d') : OD.keys d = OD.keys d' := by
  induction h with
  | nil => rfl
  | @cons a b _ _ hab _ ih =>
    simp only [OD.keys, List.map_cons] at ih ⊢
    rw [hab.key, ih]

end

/-! ## What may differ -/

/-- How two executions may differ. -/
structure Cfg (S : Type) where
  /-- aggregator contexts are compared -/
  ag : Bool
  /-- functions that may be called -/
  okFn : Str → Prop
  /-- plugins that may be called -/
  okPl : Str → Prop
  /-- corresponding symbol nodes, with the components of the name -/
  nd : Nat → Nat → List Str → Prop
  /-- states of the embedding application -/
  hs : S → S → Prop
  left : ∀ {n n' m' c d}, nd n n' c → nd n m' d → n' = m' ∧ c = d
  right : ∀ {n m n' c d}, nd n n' c → nd m n' d → n = m ∧ c = d
  same : ag = true → ∀ {n n' c}, nd n n' c → n = n'

section
variable {F S : Type} (H : Host F S) (Z : Cfg S)

mutual
inductive AndR : AndE → AndE → Prop
  | mk {l l' r r'} : OrR l l' → All2 AndTR r r' → AndR (.mk l r) (.mk l' r')
inductive AndTR : AndT → AndT → Prop
  | mk {op op' t t'} : (op = bs "&&" ↔ op' = bs "&&") → OrR t t' → AndTR (.mk op t) (.mk op' t')
inductive OrR : OrE → OrE → Prop
  | mk {l l' r r'} : CondR l l' → All2 OrTR r r' → OrR (.mk l r) (.mk l' r')
inductive OrTR : OrT → OrT → Prop
  | mk {op op' t t'} : (op = bs "||" ↔ op' = bs "||") → CondR t t' → OrTR (.mk op t) (.mk op' t')
inductive CondR : Cond → Cond → Prop
  | not {c c'} : CondR c c' → CondR (.not c) (.not c')
  | one {l l'} : AddR l l' → CondR (.cmp l none) (.cmp l' none)
  | cmp {op l l' r r'} : AddR l l' → AddR r r' → CondR (.cmp l (some (.mk op r))) (.cmp l' (some (.mk op r')))
inductive AddR : AddE → AddE → Prop
  | mk {l l' r r'} : MulR l l' → All2 AddTR r r' → AddR (.mk l r) (.mk l' r')
inductive AddTR : AddT → AddT → Prop
  | mk {op t t'} : MulR t t' → AddTR (.mk op t) (.mk op t')
inductive MulR : MulE → MulE → Prop
  | mk {l l' r r'} : MemberR l l' → All2 MulTR r r' → MulR (.mk l r) (.mk l' r')
inductive MulTR : MulT → MulT → Prop
  | mk {op t t'} : ValueR t t' → MulTR (.mk op t) (.mk op t')
inductive MemberR : Member → Member → Prop
  | mk {l l' r r'} : ValueR l l' → All2 MTermR r r' → MemberR (.mk l r) (.mk l' r')
inductive MTermR : MTerm → MTerm → Prop
  | range {s s' e e'} : Opt2 ValueR s s' → Opt2 ValueR e e' → MTermR (.range s e) (.range s' e')
  | index {i i'} : ValueR i i' → MTermR (.index i) (.index i')
  | field {f f'} : ident f = ident f' → MTermR (.field f) (.field f')
  | empty : MTermR .empty .empty
inductive CommaR : Comma → Comma → Prop
  | mk {l l' r r'} : AndR l l' → All2 CommaTR r r' → CommaR (.mk l r) (.mk l' r')
inductive CommaTR : CommaT → CommaT → Prop
  | none : CommaTR (.mk none) (.mk none)
  | some {e e'} : AndR e e' → CommaTR (.mk (some e)) (.mk (some e'))
inductive ValueR : Value → Value → Prop
  | sym {s s'} : SymR s s' → ValueR (.sym s) (.sym s')
  | sub {c c'} : CommaR c c' → ValueR (.sub c) (.sub c')
  | str {t t'} : (unquote t).getD [] = (unquote t').getD [] → ValueR (.str t) (.str t')
  | num {t t'} : H.num t = H.num t' → ValueR (.num t) (.num t')
  | bool {t t'} : (t.map upperByte = bs "TRUE" ↔ t'.map upperByte = bs "TRUE") → ValueR (.bool t) (.bool t')
  | null : ValueR .null .null
inductive SymR : Sym → Sym → Prop
  | mk {n n' s s' called p p'} : Z.nd n n' (splitIdent s) → splitIdent s = splitIdent s' →
      (∀ c, trimMinus (splitIdent s) = [c] → called = true → H.isFn c = true → Z.okFn c) →
      All2 ArgR p p' → SymR (.mk n s called p) (.mk n' s' called p')
inductive ArgR : Arg → Arg → Prop
  | mk {n v v'} : ArgVR v v' → ArgR (.mk n v) (.mk n v')
inductive ArgVR : ArgV → ArgV → Prop
  | expr {e e'} : AndR e e' → ArgVR (.expr e) (.expr e')
  | select {q q'} : SelectR q q' → ArgVR (.select q) (.select q')
  | array {c c'} : CommaR c c' → ArgVR (.array c) (.array c')
  | empty : ArgVR .empty .empty
inductive SelectR : Select → Select → Prop
  | mk {ex ex' all cols cols' from_ from_' wh wh' gb gb' ob lim} : All2 ColR cols cols' → PluginR from_ from_' →
      Opt2 CommaR wh wh' → Opt2 CommaR gb gb' →
      SelectR (.mk ex all cols from_ wh gb ob lim) (.mk ex' all cols' from_' wh' gb' ob lim)
inductive ColR : Col → Col → Prop
  | mk {b b' a a'} : ColBodyR b b' → H.colName (.mk b a) = H.colName (.mk b' a') → ColR (.mk b a) (.mk b' a')
inductive ColBodyR : ColBody → ColBody → Prop
  | star : ColBodyR .star .star
  | expr {e e'} : AndR e e' → ColBodyR (.expr e) (.expr e')
  | select {q q'} : SelectR q q' → ColBodyR (.select q) (.select q')
inductive PluginR : Plugin → Plugin → Prop
  | mk {n n' called p p'} : splitIdent n = splitIdent n' →
      (∀ c, splitIdent n = [c] → called = true → H.isPlugin c = true → Z.okPl c) →
      All2 ArgR p p' → PluginR (.mk n called p) (.mk n' called p')
end

/-- Definitions made by `LET`: defaults and body. -/
def SExprR (e e' : SExpr) : Prop := All2 (EntR (ArgR H Z)) e.defaults e'.defaults ∧ AndR H Z e.body e'.body

def SQueryR (q q' : SQuery) : Prop :=
  All2 (EntR (ArgR H Z)) q.defaults q'.defaults ∧ SelectR H Z q.query q'.query

/-! ## Values and heaps -/

/-- Related heap objects of two executions. -/
structure Corr where
  sc : Nat → Nat → Prop
  lz : Nat → Nat → Prop
  rw : Nat → Nat → Prop
  si : Nat → Nat → Prop
  cx : Nat → Nat → Prop

/-- More objects are related. -/
structure Corr.Le (W W' : Corr) : Prop where
  sc : ∀ {i j}, W.sc i j → W'.sc i j
  lz : ∀ {i j}, W.lz i j → W'.lz i j
  rw : ∀ {i j}, W.rw i j → W'.rw i j
  si : ∀ {i j}, W.si i j → W'.si i j
  cx : ∀ {i j}, W.cx i j → W'.cx i j

theorem Corr.Le.refl (W : Corr) : W.Le W := ⟨id, id, id, id, id⟩

theorem Corr.Le.trans {W W' W'' : Corr} (h : W.Le W') (h' : W'.Le W'') : W.Le W'' :=
  ⟨fun x => h'.sc (h.sc x), fun x => h'.lz (h.lz x), fun x => h'.rw (h.rw x), fun x => h'.si (h.si x),
    fun x => h'.cx (h.cx x)⟩

/-- Related objects.  Registered functions and plugins are related to nothing: they are only
used where they are found. -/
def ObjR (W : Corr) : Obj → Obj → Prop
  | .lazy c, .lazy c' => W.lz c c'
  | .sexpr e, .sexpr e' => SExprR H Z e e'
  | .squery q, .squery q' => SQueryR H Z q q'
  | .select q, .select q' => SelectR H Z q q'
  | .site c, .site c' => W.si c c'
  | .scope i, .scope j => W.sc i j
  | .row c, .row c' => W.rw c c'
  | .host i, .host j => i = j
  | _, _ => False

/-- Related values. -/
inductive VR (W : Corr) : V F → V F → Prop
  | null : VR W .null .null
  | bool (b) : VR W (.bool b) (.bool b)
  | int (i) : VR W (.int i) (.int i)
  | float (f) : VR W (.float f) (.float f)
  | str (s) : VR W (.str s) (.str s)
  | time (t) : VR W (.time t) (.time t)
  | arr {l l'} : All2 (VR W) l l' → VR W (.arr l) (.arr l')
  | dict {d d'} : All2 (EntR (VR W)) d d' → VR W (.dict d) (.dict d')
  | query {l l'} : All2 (VR W) l l' → VR W (.query l) (.query l')
  | obj {o o'} : ObjR H Z W o o' → VR W (.obj o) (.obj o')

variable {H Z}

theorem ObjR.mono {W W' : Corr} (h : W.Le W') {o o' : Obj} (ho : ObjR H Z W o o') : ObjR H Z W' o o' := by
  cases o <;> cases o' <;>
    first
    | exact h.lz ho | exact h.si ho | exact h.sc ho | exact h.rw ho | exact ho

mutual
theorem VR.mono {W W' : Corr} (h : W.Le W') : ∀ {v v' : V F}, VR H Z W v v' → VR H Z W' v v'
  | .null, _, .null => .null
  | .bool _, _, .bool _ => .bool _
  | .int _, _, .int _ => .int _
  | .float _, _, .float _ => .float _
  | .str _, _, .str _ => .str _
  | .time _, _, .time _ => .time _
  | .arr _, _, .arr hl => .arr (VRL.mono h hl)
  | .dict _, _, .dict hl => .dict (VRD.mono h hl)
  | .query _, _, .query hl => .query (VRL.mono h hl)
  | .obj _, _, .obj ho => .obj (ho.mono h)
theorem VRL.mono {W W' : Corr} (h : W.Le W') : ∀ {l l' : List (V F)}, All2 (VR H Z W) l l' → All2 (VR H Z W') l l'
  | [], _, .nil => .nil
  | _ :: _, _, .cons ha hl => .cons (VR.mono h ha) (VRL.mono h hl)
theorem VRD.mono {W W' : Corr} (h : W.Le W') :
    ∀ {l l' : List (Str × V F)}, All2 (EntR (VR H Z W)) l l' → All2 (EntR (VR H Z W')) l l'
  | [], _, .nil => .nil
  | (_, _) :: _, _, .cons (.mk ha) hl => .cons (.mk (VR.mono h ha)) (VRD.mono h hl)
end

variable (H Z)

/-- Related lists of values. -/
abbrev VRL (W : Corr) : List (V F) → List (V F) → Prop := All2 (VR H Z W)

/-- Related argument lists, dictionaries, caches. -/
abbrev VRD (W : Corr) : List (Str × V F) → List (Str × V F) → Prop := All2 (EntR (VR H Z W))

/-- Related column getters. -/
inductive GetR (W : Corr) : Getter F → Getter F → Prop
  | const {v v'} : VR H Z W v v' → GetR W (.const v) (.const v')
  | col {c c' n s s'} : ColR H Z c c' → W.sc s s' → GetR W (.col c n s) (.col c' n s')

/-- Related columns of lazy rows. -/
abbrev GetL (W : Corr) : List (Str × Getter F) → List (Str × Getter F) → Prop := All2 (EntR (GetR H Z W))

/-- Related values of aggregate functions. -/
inductive CellR (W : Corr) : Cell F Obj → Cell F Obj → Prop
  | count (n) : CellR W (.count n) (.count n)
  | sum (n) : CellR W (.sum n) (.sum n)
  | val {v v'} : VR H Z W v v' → CellR W (.val v) (.val v')
  | items {l l'} : VRL H Z W l l' → CellR W (.items l) (.items l')
  | null : CellR W .null .null
  | nil : CellR W .nil .nil

/-- Related aggregator contexts. -/
abbrev CtxR (W : Corr) : AggCtx F Obj → AggCtx F Obj → Prop := All2 (EntR (CellR H Z W))

/-- Related scopes with indices `i` and `j`. -/
structure ScpR (W : Corr) (i j : Nat) (x y : Scp F) : Prop where
  vars : VRL H Z W x.vars y.vars
  depth : x.depth = y.depth
  parent : Z.ag = true → Opt2 (fun p q => W.sc p q ∧ p < i ∧ q < j) x.parent y.parent
  ag : Z.ag = true → Opt2 W.cx x.ag y.ag

/-- Related lazy expressions. -/
structure LazyR (W : Corr) (x y : LazyCell F) : Prop where
  expr : AndR H Z x.expr y.expr
  scope : W.sc x.scope y.scope
  value : Opt2 (VR H Z W) x.value y.value

/-- Related lazy rows. -/
structure RowR (W : Corr) (x y : RowCell F) : Prop where
  cols : GetL H Z W x.cols y.cols
  cache : VRD H Z W x.cache y.cache

/-- Related call sites. -/
structure SiteR (W : Corr) (x y : V F × Nat) : Prop where
  query : VR H Z W x.1 y.1
  scope : W.sc x.2 y.2

/-- Corresponding indices are a partial bijection, in range, and have related contents. -/
structure Cells {α β : Type} (R : Nat → Nat → Prop) (P : Nat → Nat → α → β → Prop) (l : List α)
    (l' : List β) : Prop where
  get : ∀ {i j}, R i j → ∃ x y, l[i]? = some x ∧ l'[j]? = some y ∧ P i j x y
  left : ∀ {i j k}, R i j → R i k → j = k
  right : ∀ {i j k}, R i k → R j k → i = j

/-- Adds a pair to a relation. -/
def addPair (R : Nat → Nat → Prop) (a b : Nat) (i j : Nat) : Prop := R i j ∨ (i = a ∧ j = b)

section
variable {α β : Type} {R : Nat → Nat → Prop} {P P' : Nat → Nat → α → β → Prop} {l : List α} {l' : List β}

theorem Cells.mono (h : Cells R P l l') (hp : ∀ i j x y, P i j x y → P' i j x y) : Cells R P' l l' where
  get hij := by
    obtain ⟨x, y, h1, h2, h3⟩ := h.get hij
    exact ⟨x, y, h1, h2, hp _ _ _ _ h3⟩
  left := h.left
  right := h.right

theorem Cells.push (h : Cells R P l l') (hp : ∀ i j x y, P i j x y → P' i j x y) {x : α} {y : β}
    (hxy : P' l.length l'.length x y) :
    Cells (addPair R l.length l'.length) P' (l ++ [x]) (l' ++ [y]) where
  get := by
    rintro i j (hij | ⟨rfl, rfl⟩)
    · obtain ⟨u, v, h1, h2, h3⟩ := h.get hij
      refine ⟨u, v, ?_, ?_, hp _ _ _ _ h3⟩
      · rw [List.getElem?_append_left (List.getElem?_eq_some_iff.1 h1).1, h1]
      · rw [List.getElem?_append_left (List.getElem?_eq_some_iff.1 h2).1, h2]
    · exact ⟨x, y, by simp, by simp, hxy⟩
  left := by
    rintro i j k (hij | ⟨rfl, rfl⟩) (hik | ⟨h1, rfl⟩)
    · exact h.left hij hik
    · obtain ⟨u, v, h2, _⟩ := h.get hij
      have := (List.getElem?_eq_some_iff.1 h2).1
      omega
    · obtain ⟨u, v, h2, _⟩ := h.get hik
      have := (List.getElem?_eq_some_iff.1 h2).1
      omega
    · rfl
  right := by
    rintro i j k (hij | ⟨rfl, rfl⟩) (hik | ⟨rfl, h1⟩)
    · exact h.right hij hik
    · obtain ⟨u, v, _, h2, _⟩ := h.get hij
      have := (List.getElem?_eq_some_iff.1 h2).1
      omega
    · obtain ⟨u, v, _, h2, _⟩ := h.get hik
      have := (List.getElem?_eq_some_iff.1 h2).1
      omega
    · rfl

theorem Cells.put (h : Cells R P l l') {i j : Nat} (hij : R i j) {x : α} {y : β} (hxy : P i j x y) :
    Cells R P (l.set i x) (l'.set j y) where
  get := by
    intro a b hab
    obtain ⟨u, v, h1, h2, h3⟩ := h.get hab
    have l1 := (List.getElem?_eq_some_iff.1 h1).1
    have l2 := (List.getElem?_eq_some_iff.1 h2).1
    by_cases ha : i = a
    · subst ha
      have := h.left hij hab
      subst this
      exact ⟨x, y, by simp [l1], by simp [l2], hxy⟩
    · have hb : j ≠ b := fun e => ha (by subst e; exact h.right hij hab)
      exact ⟨u, v, by rw [List.getElem?_set_ne ha, h1], by rw [List.getElem?_set_ne hb, h2], h3⟩
  left := h.left
  right := h.right

end

/-- The caches of a syntax node with the components `c`: the function it calls is the one of its
name, and if the name starts with a minus sign both nodes have been split or none. -/
structure NdR (st st' : St F S) (n n' : Nat) (c : List Str) : Prop where
  fn : ∀ p, st.fns.find? (fun p => p.1 == n) = some p → trimMinus c = [p.2]
  fn' : ∀ p, st'.fns.find? (fun p => p.1 == n') = some p → trimMinus c = [p.2]
  split : hasMinus c = true → st.split.contains n = st'.split.contains n'

/-- Related heaps. -/
structure StR (W : Corr) (st st' : St F S) : Prop where
  sc : Cells W.sc (ScpR H Z W) st.scopes st'.scopes
  lz : Cells W.lz (fun _ _ => LazyR H Z W) st.lazies st'.lazies
  rw : Cells W.rw (fun _ _ => RowR H Z W) st.rows st'.rows
  si : Cells W.si (fun _ _ => SiteR H Z W) st.sites st'.sites
  cx : Cells W.cx (fun _ _ x y => Z.ag = true → CtxR H Z W x y) st.ctxs st'.ctxs
  nd : ∀ {n n' c}, Z.nd n n' c → NdR st st' n n' c
  hs : Z.hs st.host st'.host

variable {H Z}

theorem GetR.mono {W W' : Corr} (h : W.Le W') {g g' : Getter F} (hg : GetR H Z W g g') : GetR H Z W' g g' := by
  cases hg with
  | const hv => exact .const (hv.mono h)
  | col hc hs => exact .col hc (h.sc hs)

theorem GetL.mono {W W' : Corr} (h : W.Le W') {g g' : List (Str × Getter F)} (hg : GetL H Z W g g') :
    GetL H Z W' g g' := All2.mono (fun _ _ x => x.mono (fun _ _ y => y.mono h)) hg

theorem CellR.mono {W W' : Corr} (h : W.Le W') {g g' : Cell F Obj} (hg : CellR H Z W g g') : CellR H Z W' g g' := by
  cases hg with
  | val hv => exact .val (hv.mono h)
  | items hl => exact .items (VRL.mono h hl)
  | count => exact .count _
  | sum => exact .sum _
  | null => exact .null
  | nil => exact .nil

theorem CtxR.mono {W W' : Corr} (h : W.Le W') {g g' : AggCtx F Obj} (hg : CtxR H Z W g g') : CtxR H Z W' g g' :=
  All2.mono (fun _ _ x => x.mono (fun _ _ y => y.mono h)) hg

theorem ScpR.mono {W W' : Corr} (h : W.Le W') {i j : Nat} {x y : Scp F} (hx : ScpR H Z W i j x y) :
    ScpR H Z W' i j x y :=
  ⟨VRL.mono h hx.vars, hx.depth, fun ha => (hx.parent ha).mono (fun _ _ z => ⟨h.sc z.1, z.2⟩),
    fun ha => (hx.ag ha).mono (fun _ _ z => h.cx z)⟩

theorem LazyR.mono {W W' : Corr} (h : W.Le W') {x y : LazyCell F} (hx : LazyR H Z W x y) : LazyR H Z W' x y :=
  ⟨hx.expr, h.sc hx.scope, hx.value.mono (fun _ _ z => z.mono h)⟩

theorem RowR.mono {W W' : Corr} (h : W.Le W') {x y : RowCell F} (hx : RowR H Z W x y) : RowR H Z W' x y :=
  ⟨GetL.mono h hx.cols, VRD.mono h hx.cache⟩

theorem SiteR.mono {W W' : Corr} (h : W.Le W') {x y : V F × Nat} (hx : SiteR H Z W x y) : SiteR H Z W' x y :=
  ⟨hx.query.mono h, h.sc hx.scope⟩

/-! ## Programs -/

/-- What recursive calls do. -/
abbrev Rec (F S : Type) := (c : Call F) → St F S → Option (c.Ret × St F S)

variable (H Z)

/-- Whenever the first computation finishes, so does the second, with a related result. -/
def SimF {α β : Type} (Q : Corr → α → β → Prop) (W : Corr) (f : St F S → Option (α × St F S))
    (f' : St F S → Option (β × St F S)) : Prop :=
  ∀ st st', StR H Z W st st' → ∀ a s1, f st = some (a, s1) →
    ∃ a' s1' W', f' st' = some (a', s1') ∧ W.Le W' ∧ StR H Z W' s1 s1' ∧ Q W' a a'

/-- The same for programs. -/
def Sim (rec : Rec F S) {α β : Type} (Q : Corr → α → β → Prop) (W : Corr) (p : Prog F S α) (p' : Prog F S β) :
    Prop := SimF H Z Q W (interp rec p) (interp rec p')

/-- Results of `Associative`. -/
def OVR (W : Corr) (r r' : Option (V F) × Bool) : Prop := Opt2 (VR H Z W) r.1 r'.1 ∧ r.2 = r'.2

/-- The same result. -/
def EqR {α : Type} (_ : Corr) (a b : α) : Prop := a = b

/-- Keys of `Associative`. -/
inductive KeyR (W : Corr) : Key F Obj → Key F Obj → Prop
  | val {v v'} : VR H Z W v v' → KeyR W (.val v) (.val v')
  | range (s e) : KeyR W (.range s e) (.range s e)

/-- Related calls have related results. -/
structure RecSim (rec : Rec F S) : Prop where
  and : ∀ {W e e' s s'}, AndR H Z e e' → W.sc s s' → SimF H Z (VR H Z) W (rec (.and e s)) (rec (.and e' s'))
  or : ∀ {W e e' s s'}, OrR H Z e e' → W.sc s s' → SimF H Z (VR H Z) W (rec (.or e s)) (rec (.or e' s'))
  cond : ∀ {W e e' s s'}, CondR H Z e e' → W.sc s s' → SimF H Z (VR H Z) W (rec (.cond e s)) (rec (.cond e' s'))
  add : ∀ {W e e' s s'}, AddR H Z e e' → W.sc s s' → SimF H Z (VR H Z) W (rec (.add e s)) (rec (.add e' s'))
  mul : ∀ {W e e' s s'}, MulR H Z e e' → W.sc s s' → SimF H Z (VR H Z) W (rec (.mul e s)) (rec (.mul e' s'))
  member : ∀ {W e e' s s'}, MemberR H Z e e' → W.sc s s' →
    SimF H Z (VR H Z) W (rec (.member e s)) (rec (.member e' s'))
  comma : ∀ {W e e' s s'}, CommaR H Z e e' → W.sc s s' → SimF H Z (VR H Z) W (rec (.comma e s)) (rec (.comma e' s'))
  value : ∀ {W e e' s s'}, ValueR H Z e e' → W.sc s s' → SimF H Z (VR H Z) W (rec (.value e s)) (rec (.value e' s'))
  sym : ∀ {W e e' s s'}, SymR H Z e e' → W.sc s s' → SimF H Z (VR H Z) W (rec (.sym e s)) (rec (.sym e' s'))
  negate : ∀ {W v v' s s'}, VR H Z W v v' → W.sc s s' →
    SimF H Z (VR H Z) W (rec (.negate v s)) (rec (.negate v' s'))
  col : ∀ {W e e' s s'}, ColR H Z e e' → W.sc s s' → SimF H Z (VR H Z) W (rec (.col e s)) (rec (.col e' s'))
  getter : ∀ {W g g'}, GetR H Z W g g' → SimF H Z (VR H Z) W (rec (.getter g)) (rec (.getter g'))
  rowGet : ∀ {W c c' k}, W.rw c c' → SimF H Z (OVR H Z) W (rec (.rowGet c k)) (rec (.rowGet c' k))
  lazyWith : ∀ {W c c' s s'}, W.lz c c' → W.sc s s' →
    SimF H Z (VR H Z) W (rec (.lazyWith c s)) (rec (.lazyWith c' s'))
  lazyReduce : ∀ {W c c'}, W.lz c c' → SimF H Z (VR H Z) W (rec (.lazyReduce c)) (rec (.lazyReduce c'))
  resolve : ∀ {W s s' k}, W.sc s s' → SimF H Z (OVR H Z) W (rec (.resolve s k)) (rec (.resolve s' k))
  assoc : ∀ {W v v' k k' s s'}, VR H Z W v v' → KeyR H Z W k k' → W.sc s s' →
    SimF H Z (OVR H Z) W (rec (.assoc v k s)) (rec (.assoc v' k' s'))
  members : ∀ {W v v' s s'}, VR H Z W v v' → W.sc s s' →
    SimF H Z EqR W (rec (.members v s)) (rec (.members v' s'))
  select : ∀ {W q q' s s'}, SelectR H Z q q' → W.sc s s' →
    SimF H Z (VRL H Z) W (rec (.select q s)) (rec (.select q' s'))
  plugin : ∀ {W q q' s s'}, PluginR H Z q q' → W.sc s s' →
    SimF H Z (VRL H Z) W (rec (.plugin q s)) (rec (.plugin q' s'))
  withArgs : ∀ {W a a' v v' s s'}, All2 (ArgR H Z) a a' →
    (VR H Z W v v' ∨ ∃ n, Z.okPl n ∧ v = .obj (.plugin n) ∧ v' = .obj (.plugin n)) → W.sc s s' →
    SimF H Z (VRL H Z) W (rec (.evalSymbolWithArgs a v s)) (rec (.evalSymbolWithArgs a' v' s'))
  evalSymbol : ∀ {W v v' s s'}, VR H Z W v v' → W.sc s s' →
    SimF H Z (VRL H Z) W (rec (.evalSymbol v s)) (rec (.evalSymbol v' s'))
  evalQuery : ∀ {W v v' s s'}, VR H Z W v v' → W.sc s s' →
    SimF H Z (VRL H Z) W (rec (.evalQuery v s)) (rec (.evalQuery v' s'))

/-- The functions, plugins and operators of the embedding application respect the relation. -/
structure HostR : Prop where
  fn : ∀ {rec}, RecSim H Z rec → ∀ {W n m m' c s s' a a'}, Z.okFn n → Z.nd m m' c → W.sc s s' → VRD H Z W a a' →
    Sim H Z rec (VR H Z) W (H.fn n m s a) (H.fn n m' s' a')
  plugin : ∀ {rec}, RecSim H Z rec → ∀ {W n s s' a a'}, Z.okPl n → W.sc s s' → VRD H Z W a a' →
    Sim H Z rec (VRL H Z) W (H.plugin n s a) (H.plugin n s' a')
  arith : ∀ {rec}, RecSim H Z rec → ∀ {W op a a' b b' s s'}, VR H Z W a a' → VR H Z W b b' → W.sc s s' →
    Sim H Z rec (VR H Z) W (H.arith op a b s) (H.arith op a' b' s')
  rel : ∀ {rec}, RecSim H Z rec → ∀ {W op a a' b b' s s'}, VR H Z W a a' → VR H Z W b b' → W.sc s s' →
    Sim H Z rec EqR W (H.rel op a b s) (H.rel op a' b' s')
  truth : ∀ {rec}, RecSim H Z rec → ∀ {W a a' s s'}, VR H Z W a a' → W.sc s s' →
    Sim H Z rec EqR W (H.truth a s) (H.truth a' s')
  toStr : ∀ {rec}, RecSim H Z rec → ∀ {W a a' s s'}, VR H Z W a a' → W.sc s s' →
    Sim H Z rec EqR W (H.toStr a s) (H.toStr a' s')
  sort : ∀ {rec}, RecSim H Z rec → ∀ {W k d a a' s s'}, VRL H Z W a a' → W.sc s s' →
    Sim H Z rec (VRL H Z) W (H.sort k d a s) (H.sort k d a' s')
  assocImpl : ∀ {rec}, RecSim H Z rec → ∀ {W a a' k k' s s'}, VR H Z W a a' → KeyR H Z W k k' → W.sc s s' →
    Opt2 (Sim H Z rec (OVR H Z) W) (H.assocImpl a k s) (H.assocImpl a' k' s')
  assocDefault : ∀ {rec}, RecSim H Z rec → ∀ {W a a' k k' s s'}, VR H Z W a a' → KeyR H Z W k k' → W.sc s s' →
    Sim H Z rec (OVR H Z) W (H.assocDefault a k s) (H.assocDefault a' k' s')
  hostMembers : ∀ {rec}, RecSim H Z rec → ∀ {W a a' s s'}, VR H Z W a a' → W.sc s s' →
    Sim H Z rec EqR W (H.hostMembers a s) (H.hostMembers a' s')
  num : ∀ {W t v}, H.num t = some v → VR H Z W v v

end
end Vfilter.Vql
