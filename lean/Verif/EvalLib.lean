import Verif.EvalDemo
import Verif.Library
import Verif.Props.EvalIf
import Verif.Props.EvalOrder
/-!
# The host with the package's functions and plugins is well behaved
-/
set_option linter.all false

namespace Vfilter.Vql

section
variable {F S : Type} [FloatOps F]

theorem polite_forceP (s : Nat) (v : V F) (o : List Nat) : (forceP s v : Prog F S _).Polite false o := by
  unfold forceP
  split
  · exact (polite_materializeP _ _ _).bind fun _ => trivial
  · trivial

theorem polite_libTruth (W : World F Obj) (v : V F) (s : Nat) (o : List Nat) :
    (libTruth W v s : Prog F S _).Polite false o :=
  (polite_reduceP _ _).bind fun _ => (polite_forceP _ _ _).bind fun _ => trivial

theorem polite_libArith (W : World F Obj) (op : Arith) (a b : V F) (s : Nat) (o : List Nat) :
    (libArith W op a b s : Prog F S _).Polite false o := by
  cases op with
  | add =>
    refine (polite_reduceP _ _).bind fun a => (polite_reduceP _ _).bind fun b => ?_
    split
    · exact (polite_forceP _ _ _).bind fun _ => (polite_forceP _ _ _).bind fun _ => trivial
    · trivial
  | sub => exact (polite_reduceP _ _).bind fun _ => (polite_reduceP _ _).bind fun _ => trivial
  | mul => exact (polite_reduceP _ _).bind fun _ => (polite_reduceP _ _).bind fun _ => trivial
  | div => exact (polite_reduceP _ _).bind fun _ => trivial

omit [FloatOps F] in
theorem polite_rowFieldsP (s : Nat) (f : V F → Prog F S (V F)) (row : V F) (o : List Nat)
    (h : ∀ v, (f v).Polite false o) : (rowFieldsP s f row : Prog F S _).Polite false o := by
  refine (polite_call_bind _ _ _).2 fun ms => polite_foldP (fun acc m => ?_) _ _
  refine (polite_call_bind _ _ _).2 fun r => ?_
  split
  · exact (h _).bind fun _ => trivial
  · trivial

omit [FloatOps F] in
theorem polite_normalizeP (s : Nat) (o : List Nat) : ∀ (n : Nat) (v : V F),
    (normalizeP s n v : Prog F S _).Polite false o
  | 0, _ => trivial
  | n + 1, v => by
    unfold normalizeP
    split
    · exact (polite_call_bind _ _ _).2 fun _ => polite_normalizeP s o n _
    · exact (polite_mapP (fun _ => polite_normalizeP s o n _) _).bind fun _ => trivial
    · split
      · exact (polite_materializeP _ _ _).bind fun _ => trivial
      · trivial

omit [FloatOps F] in
theorem polite_normalizeArgsP (a : OD (V F)) (o : List Nat) : (normalizeArgsP a : Prog F S _).Polite false o := by
  unfold normalizeArgsP
  split
  · trivial
  · refine (polite_reduceP _ _).bind fun v => ?_
    split <;> trivial

omit [FloatOps F] in
theorem polite_elementTextP (fmtV : V F → Str) (s : Nat) (x : V F) (o : List Nat) :
    (elementTextP fmtV s x : Prog F S _).Polite false o := by
  unfold elementTextP
  split
  · trivial
  · refine (polite_call_bind _ _ _).2 fun ms => ?_
    split
    · refine (polite_call_bind _ _ _).2 fun r => ?_
      split
      · split <;> trivial
      · trivial
    · trivial

omit [FloatOps F] in
theorem polite_textP (fmtV : V F → Str) (s : Nat) (x : V F) (o : List Nat) :
    (textP fmtV s x : Prog F S _).Polite false o := by
  unfold textP
  split
  · exact polite_elementTextP _ _ _ _
  all_goals trivial

theorem polite_fieldP (W : World F Obj) (fmtV : V F → Str) (s : Nat) (v : V F) (k : FieldKind) (o : List Nat) :
    (fieldP W fmtV s v k : Prog F S _).Polite false o := by
  cases k with
  | any => exact (polite_anyFieldP _ _ _).bind fun _ => trivial
  | int => exact (polite_reduceP _ _).bind fun _ => trivial
  | str => exact (polite_reduceP _ _).bind fun _ => (polite_textP _ _ _ _).bind fun _ => trivial
  | bool => exact (polite_reduceP _ _).bind fun _ => (polite_libTruth _ _ _ _).bind fun _ => trivial
  | lazy => trivial
  | query => exact (polite_reduceP _ _).bind fun _ => trivial

theorem polite_parseFieldsP (W : World F Obj) (fmtV : V F → Str) (s : Nat) (a : OD (V F)) (o : List Nat) :
    ∀ (fs : List ArgField) (acc : OD (V F)), (parseFieldsP W fmtV s a fs acc : Prog F S _).Polite false o
  | [], _ => trivial
  | f :: fs, acc => by
    unfold parseFieldsP
    split
    · split
      · trivial
      · exact polite_parseFieldsP W fmtV s a o fs acc
    · refine (polite_fieldP _ _ _ _ _ _).bind fun r => ?_
      split
      · trivial
      · exact polite_parseFieldsP W fmtV s a o fs _

theorem polite_parseArgsP (W : World F Obj) (fmtV : V F → Str) (n : Str) (s : Nat) (fs : List ArgField)
    (a : OD (V F)) (o : List Nat) : (parseArgsP W fmtV n s fs a : Prog F S _).Polite false o := by
  refine (polite_normalizeArgsP _ _).bind fun a => (polite_parseFieldsP _ _ _ _ _ _ _).bind fun r => ?_
  split
  · exact polite_prim_bind rfl fun _ => trivial
  · split
    · exact polite_prim_bind rfl fun _ => trivial
    · trivial

omit [FloatOps F] in
theorem polite_getLoopP (s : Nat) (o : List Nat) : ∀ (l : List Str) (v : V F),
    (getLoopP s v l : Prog F S _).Polite false o
  | [], _ => trivial
  | m :: l, v => by
    unfold getLoopP
    refine (polite_call_bind _ _ _).2 fun r => ?_
    split
    · trivial
    · exact polite_getLoopP s o l _

theorem polite_iterateP (W : World F Obj) (s : Nat) (v : V F) (o : List Nat) :
    (iterateP W s v : Prog F S _).Polite false o := by
  refine (polite_reduceP _ _).bind fun v => ?_
  split
  · exact polite_call _ _
  · trivial

omit [FloatOps F] in
theorem polite_foreachRowP (s : Nat) (k : Str) (q : Option (V F)) (row : V F) (o : List Nat) :
    (foreachRowP s k q row : Prog F S _).Polite false o := by
  have key : ∀ row : V F, (match q with
      | none => pure [row]
      | some q => do
        let child ← prim (.copy s)
        prim (.append child row)
        evalBranchP child q : Prog F S (List (V F))).Polite false o := by
    intro row
    cases q with
    | none => trivial
    | some q =>
      refine (polite_copy_bind _ _ _).2 fun r => (polite_append_bind _ _ _ _).2 ⟨List.mem_cons_self, fun _ => ?_⟩
      exact polite_evalBranchP _ _ _
  unfold foreachRowP
  by_cases hk : k = []
  · simp only [hk, if_true]
    exact key row
  · simp only [hk, if_false]
    refine (polite_call_bind _ _ _).2 fun r => ?_
    obtain ⟨x, p⟩ := r
    cases p with
    | true => exact key _
    | false => exact key _

theorem polite_flattenRowP (W : World F Obj) (s : Nat) (o : List Nat) : ∀ (n : Nat) (d : OD (V F)),
    (flattenRowP W s n d : Prog F S _).Polite false o
  | 0, _ => trivial
  | n + 1, d => by
    unfold flattenRowP
    split
    · trivial
    · refine (polite_iterateP _ _ _ _).bind fun ms => ?_
      dsimp only
      split
      · exact polite_flattenRowP W s o n d
      · exact (polite_mapP (fun _ => polite_flattenRowP W s o n _) _).bind fun _ => trivial

omit [FloatOps F] in
theorem polite_makeDictP (s : Nat) (v : V F) (o : List Nat) : (makeDictP s v : Prog F S _).Polite false o := by
  unfold makeDictP
  split
  · trivial
  · exact polite_rowFieldsP _ _ _ _ fun _ => trivial

omit [FloatOps F] in
theorem polite_ite {α : Type} {c : Prop} [Decidable c] {p q : Prog F S α} {o : List Nat}
    (h1 : p.Polite false o) (h2 : q.Polite false o) : (if c then p else q).Polite false o := by
  split
  · exact h1
  · exact h2

theorem polite_queryKeyP (s : Nat) (k : Key F Obj) (o : List Nat) : ∀ (l : List (V F)) (i : Nat) (acc : List (V F)),
    (queryKeyP s k i acc l : Prog F S _).Polite false o
  | [], _, _ => trivial
  | r :: l, i, acc => by
    unfold queryKeyP
    refine polite_ite trivial ((polite_call_bind _ _ _).2 fun r => ?_)
    split <;> exact polite_queryKeyP s k o l _ _

/-- What an application adds only changes scopes of its own. -/
structure Extra.Polite (X : Extra F S) : Prop where
  fns : ∀ n f, OD.get X.fns n = some f → ∀ node s args, (f node s args).Polite false []
  plugins : ∀ n f, OD.get X.plugins n = some f → ∀ s args, (f s args).Polite false []
  assocImpl : ∀ a k s p, X.assocImpl a k s = some p → p.Polite false []
  members : ∀ v s, (X.members v s).Polite false []

theorem polite_entry {α : Type} {c : Prop} [Decidable c] {p r : Prog F S α} {q : Option (Prog F S α)}
    (h1 : p.Polite false []) (h2 : (q.getD r).Polite false []) : ((if c then some p else q).getD r).Polite false [] := by
  split
  · exact h1
  · exact h2

variable (W : World F Obj) (matchF : V F → V F → Bool) (fmtV : V F → Str)
  (colName : Col → Str) (num : Str → Option (V F)) (text : Select → Str) (fuel : Nat) (X : Extra F S)

/-- The package's functions and plugins only change scopes of their own. -/
theorem libHost_polite (hX : X.Polite) : (libHost W matchF fmtV colName num text fuel X).Polite where
  fn n node s args := by
    show Prog.Polite false (match OD.get X.fns n with
      | some f => f node s args
      | none => (libFn W fmtV X n node s args).getD (pure .null)) []
    cases h : OD.get X.fns n with
    | some f => exact hX.fns n f h node s args
    | none =>
      have pa : ∀ (n : Str) (fs : List ArgField), (parseArgsP W fmtV n s fs args : Prog F S _).Polite false [] :=
        fun n fs => polite_parseArgsP _ _ _ _ _ _ _
      show ((libFn W fmtV X n node s args).getD (pure .null)).Polite false []
      unfold libFn
      refine polite_entry ((polite_rowFieldsP _ _ _ _ fun _ => polite_normalizeP _ _ _ _).bind fun _ => trivial) ?_
      refine polite_entry ((pa _ _).bind fun r => by split <;> trivial) ?_
      refine polite_entry ((pa _ _).bind fun r => ?_) ?_
      · split
        · trivial
        · split
          · split
            · trivial
            · exact polite_prim_bind rfl fun _ => trivial
          · split
            · trivial
            · exact polite_prim_bind rfl fun _ => trivial
      refine polite_entry ((polite_normalizeArgsP _ _).bind fun _ => polite_ifFnP _ (polite_libTruth W) _ _ _) ?_
      refine polite_entry ((pa _ _).bind fun r => by split <;> trivial) ?_
      refine polite_entry ((pa _ _).bind fun r => ?_) ?_
      · split
        · trivial
        · exact polite_getLoopP _ _ _ _
      refine polite_entry ((pa _ _).bind fun r => ?_) ?_
      · split
        · trivial
        · split
          · trivial
          · exact polite_prim_bind rfl fun _ => trivial
      refine polite_entry ((polite_normalizeArgsP _ _).bind fun _ => polite_itemsFnP _ _ _ _ _ _) ?_
      refine polite_entry ((pa _ _).bind fun r => ?_) ?_
      · split
        · trivial
        · exact polite_prim rfl
      refine polite_entry ((pa _ _).bind fun r => ?_) ?_
      · split
        · trivial
        · exact (polite_reduceP _ _).bind fun _ => polite_prim rfl
      refine polite_entry ((pa _ _).bind fun r => ?_) ?_
      · split
        · trivial
        · exact (polite_reduceP _ _).bind fun _ => polite_prim rfl
      refine polite_entry ((polite_normalizeArgsP _ _).bind fun _ => polite_itemsFnP _ _ _ _ _ _) ?_
      refine polite_entry ((pa _ _).bind fun r => by split <;> trivial) ?_
      refine polite_entry trivial trivial
  plugin n s args := by
    show Prog.Polite false (match OD.get X.plugins n with
      | some f => f s args
      | none => (libPlugin W fmtV fuel n s args).getD (pure [])) []
    cases h : OD.get X.plugins n with
    | some f => exact hX.plugins n f h s args
    | none =>
      have pa : ∀ (n : Str) (fs : List ArgField), (parseArgsP W fmtV n s fs args : Prog F S _).Polite false [] :=
        fun n fs => polite_parseArgsP _ _ _ _ _ _ _
      show ((libPlugin W fmtV fuel n s args).getD (pure [])).Polite false []
      unfold libPlugin
      refine polite_entry ((polite_normalizeArgsP _ _).bind fun _ => polite_ifPluginP _ (polite_libTruth W) _ _ _) ?_
      refine polite_entry ((pa _ _).bind fun r => ?_) ?_
      · split
        · trivial
        · refine (polite_evalBranchP _ _ _).bind fun rows => (polite_mapP (fun r => ?_) _).bind fun _ => trivial
          exact (polite_makeDictP _ _ _).bind fun d => polite_flattenRowP _ _ _ _ _
      refine polite_entry ((polite_mapP (fun _ => polite_reduceP _ _) _).bind fun qs =>
        (polite_mapP (fun q => ?_) _).bind fun _ => trivial) ?_
      · exact (polite_copy_bind _ _ _).2 fun r => polite_evalBranchP _ _ _
      refine polite_entry ((pa _ _).bind fun r => ?_) ?_
      · split
        · trivial
        · exact (polite_iterateP _ _ _ _).bind fun rows =>
            (polite_mapP (fun r => polite_foreachRowP _ _ _ _ _) _).bind fun _ => trivial
      refine polite_entry ((pa _ _).bind fun r => by split <;> trivial) ?_
      refine polite_entry trivial trivial
  arith op a b s := polite_libArith W op a b s []
  rel op a b s := (polite_reduceP _ _).bind fun _ => (polite_reduceP _ _).bind fun _ => trivial
  truth v s := polite_libTruth W v s []
  toStr v s := (polite_reduceP _ _).bind fun _ => trivial
  sort k d rows s := trivial
  assocImpl a k s p h := by
    have h' : (match X.assocImpl a k s with
      | some p => some p
      | none => libAssocImpl a k s) = some p := h
    cases hx : X.assocImpl a k s with
    | some q =>
      rw [hx] at h'
      cases h'
      exact hX.assocImpl a k s _ hx
    | none =>
      rw [hx] at h'
      simp only [libAssocImpl] at h'
      split at h'
      · cases h'
      · split at h'
        · cases h'
          refine (polite_copy_bind _ _ _).2 fun ns => (polite_call_bind _ _ _).2 fun rows => ?_
          exact polite_queryKeyP _ _ _ _ _ _
        · cases h'
  assocDefault a k s := trivial
  hostMembers v s := hX.members v s

/-- `ORDER BY` loses and invents no rows. -/
theorem libHost_sort : SortOK (libHost W matchF fmtV colName num text fuel X) := by
  intro k desc l s st out st' h x hx
  have h' : Runs (libHost W matchF fmtV colName num text fuel X)
    (pure (insertionSort (rowLess W (fun r => assocStr W r k) desc) l)) st out st' := h
  obtain ⟨rfl, rfl⟩ := runs_pure.1 h'
  exact (insertionSort_perm _ _).mem_iff.1 hx

theorem lib_fn {name : Str} {node s : Nat} {args : OD (V F)} {p : Prog F S (V F)} (h : OD.get X.fns name = none)
    (e : libFn W fmtV X name node s args = some p) :
    (libHost W matchF fmtV colName num text fuel X).fn name node s args = p := by
  show (match OD.get X.fns name with
      | some f => f node s args
      | none => (libFn W fmtV X name node s args).getD (pure .null)) = _
  rw [h, e]
  rfl

theorem lib_plugin {name : Str} {s : Nat} {args : OD (V F)} {p : Prog F S (List (V F))}
    (h : OD.get X.plugins name = none) (e : libPlugin W fmtV fuel name s args = some p) :
    (libHost W matchF fmtV colName num text fuel X).plugin name s args = p := by
  show (match OD.get X.plugins name with
      | some f => f s args
      | none => (libPlugin W fmtV fuel name s args).getD (pure [])) = _
  rw [h, e]
  rfl

theorem lib_isFn {name : Str} (h : libFns.contains name = true) :
    (libHost W matchF fmtV colName num text fuel X).isFn name = true := by
  show (libFns.contains name || (X.fns.map (·.1)).contains name) = true
  rw [h]
  rfl

theorem lib_isPlugin {name : Str} (h : libPlugins.contains name = true) :
    (libHost W matchF fmtV colName num text fuel X).isPlugin name = true := by
  show (libPlugins.contains name || (X.plugins.map (·.1)).contains name) = true
  rw [h]
  rfl

omit [FloatOps F] in
theorem normalizeArgs_none {α : Type} {args : OD (V F)} (h : OD.get args (bs "**") = none)
    (f : OD (V F) → Prog F S α) : (normalizeArgsP args >>= f) = f args := by
  unfold normalizeArgsP
  rw [h]
  rfl

/-- `if`, unless the application replaces it. -/
theorem libHost_if (h1 : OD.get X.fns (bs "if") = none) (h2 : OD.get X.plugins (bs "if") = none) :
    HasIf (libHost W matchF fmtV colName num text fuel X) where
  isFn := lib_isFn _ _ _ _ _ _ _ _ (by decide +kernel)
  fn node s args h := by
    refine lib_fn _ _ _ _ _ _ _ _ h1 ?_
    unfold libFn
    rw [if_neg (by decide +kernel), if_neg (by decide +kernel), if_neg (by decide +kernel), if_pos rfl,
      normalizeArgs_none h]
    rfl
  isPlugin := lib_isPlugin _ _ _ _ _ _ _ _ (by decide +kernel)
  plugin s args h := by
    refine lib_plugin _ _ _ _ _ _ _ _ h2 ?_
    unfold libPlugin
    rw [if_pos rfl, normalizeArgs_none h]
    rfl

end

/-- Sorting is the package's (sort/sort.go:74-100). -/
theorem libHost_sortsBy {F S : Type} [LawfulFloat F] (W : World F Obj) (matchF : V F → V F → Bool) (fmtV : V F → Str)
    (colName : Col → Str) (num : Str → Option (V F)) (text : Select → Str) (fuel : Nat) (X : Extra F S) :
    SortsBy (libHost W matchF fmtV colName num text fuel X) W insertionSort := by
  intro k desc rows s st
  exact runs_pure.2 ⟨rfl, rfl⟩

end Vfilter.Vql
