import Verif.EvalSelect
/-!
# Expressions that are a single value, and names
-/
set_option linter.all false

namespace Vfilter.Vql

/-- An expression that is a single value. -/
def AndE.val (v : Value) : AndE := .mk (.mk (.cmp (.mk (.mk (.mk v []) []) []) none) []) []
def Comma.val (v : Value) : Comma := .mk (.val v) []

section
variable {F S : Type} [FloatOps F] {H : Host F S}

theorem runs_bind_pure {α : Type} {p : Prog F S α} {st st' : St F S} {a : α} :
    Runs H (p >>= fun x => pure x) st a st' ↔ Runs H p st a st' := by
  constructor
  · intro h
    obtain ⟨b, s1, h1, h2⟩ := runs_bind.1 h
    obtain ⟨rfl, rfl⟩ := runs_pure.1 h2
    exact h1
  · intro h
    exact runs_bind.2 ⟨a, st', h, runs_pure.2 ⟨rfl, rfl⟩⟩

/-- A value wrapped in all the levels of the grammar is just the value. -/
theorem runs_and_val {v : Value} {s : Nat} {st st' : St F S} {a : V F} :
    Runs H (call (.and (.val v) s)) st a st' ↔ Runs H (call (.value v s)) st a st' := by
  rw [runs_call]
  simp only [AndE.val, body]
  rw [runs_bind_pure]
  conv => lhs; rw [runs_call]
  simp only [body]
  rw [runs_bind_pure]
  conv => lhs; rw [runs_call]
  simp only [body]
  conv => lhs; rw [runs_call]
  simp only [body, foldP]
  rw [runs_bind_pure]
  conv => lhs; rw [runs_call]
  simp only [body, foldP]
  rw [runs_bind_pure]
  conv => lhs; rw [runs_call]
  simp only [body, memberLoopP]
  rw [runs_bind_pure]

theorem runs_comma_val {v : Value} {s : Nat} {st st' : St F S} {a : V F} :
    Runs H (call (.comma (.val v) s)) st a st' ↔ Runs H (call (.value v s)) st a st' := by
  rw [runs_call]
  simp only [Comma.val, body]
  rw [runs_bind_pure]
  exact runs_and_val

/-- A value that stands for itself when a name refers to it. -/
def Plain : V F → Prop
  | .obj (.fn _) => False
  | .obj (.sexpr _) => False
  | _ => True

/-- The state after a syntax node was split. -/
def St.seen (st : St F S) (node : Nat) : St F S := ((Prim.split node : Prim F S).step st).2

omit [FloatOps F] in
@[simp] theorem seen_scp (st : St F S) (node i : Nat) : (st.seen node).scp i = st.scp i := rfl
omit [FloatOps F] in
@[simp] theorem seen_rows (st : St F S) (node : Nat) : (st.seen node).rows = st.rows := rfl
omit [FloatOps F] in
@[simp] theorem seen_scopes (st : St F S) (node : Nat) : (st.seen node).scopes = st.scopes := rfl
omit [FloatOps F] in
@[simp] theorem seen_ctxs (st : St F S) (node : Nat) : (st.seen node).ctxs = st.ctxs := rfl

omit [FloatOps F] in
/-- A plain value found under a name that is not called is the value of the name. -/
theorem symValue_plain {node : Nat} {symbol : Str} {neg : Bool} {s : Nat} {v : V F} (hv : Plain v) :
    symValueP H node symbol false [] neg s v = negateP neg v s := by
  cases v with
  | obj o =>
    cases o <;> first | exact False.elim hv | simp [symValueP]
  | _ => simp [symValueP]

/-- A bare name of one component without minus sign. -/
theorem runs_name {node : Nat} {symbol c : Str} {s : Nat} {st st' : St F S} {a : V F}
    (hs : splitIdent symbol = [c]) (hm : hasMinus [c] = false) :
    Runs H (call (.value (.sym (.mk node symbol false [])) s)) st a st' ↔
      ∃ (e : Option (V F)) (b : Bool) (s1 : St F S),
        Runs H (call (.resolve s c)) (st.seen node) (e, b) s1 ∧
        if b then Runs H (symValueP H node symbol false [] false s (e.getD .null)) s1 a st'
        else a = .null ∧ st' = { s1 with log := s1.log ++ [bs "ERROR: not found " ++ c] } := by
  have ht : trimMinus [c] = [c] := by
    match c with
    | [] => rfl
    | x :: xs =>
      unfold trimMinus
      split
      · rename_i h
        simp only [List.cons.injEq] at h
        obtain ⟨⟨rfl, rfl⟩, rfl⟩ := h
        simp [hasMinus] at hm
      · rfl
  rw [runs_call]
  simp only [body]
  rw [runs_call]
  simp only [body, symP, hs, hm, ht]
  rw [runs_pb]
  show Runs H _ (st.seen node) a st' ↔ _
  constructor
  · intro h
    obtain ⟨found, s1, h1, h2⟩ := runs_bind.1 h
    simp only [findP, Bool.false_eq_true, false_and, if_false] at h1
    obtain ⟨e, b, s2, h3, h4⟩ := runs_walk_one.1 h1
    refine ⟨e, b, s2, h3, ?_⟩
    cases b
    · simp only [Bool.false_eq_true, if_false] at h4 ⊢
      obtain ⟨rfl, rfl⟩ := h4
      exact runs_pure.1 h2
    · simp only [if_true] at h4 ⊢
      obtain ⟨rfl, rfl⟩ := h4
      simpa using h2
  · rintro ⟨e, b, s1, h1, h2⟩
    cases b
    · simp only [Bool.false_eq_true, if_false] at h2
      refine runs_bind.2 ⟨none, { s1 with log := s1.log ++ [bs "ERROR: not found " ++ c] }, ?_, runs_pure.2 h2⟩
      simp only [findP, Bool.false_eq_true, false_and, if_false]
      exact runs_walk_one.2 ⟨e, false, s1, h1, by simp⟩
    · simp only [if_true] at h2
      refine runs_bind.2 ⟨some (e.getD .null), s1, ?_, by simpa using h2⟩
      simp only [findP, Bool.false_eq_true, false_and, if_false]
      exact runs_walk_one.2 ⟨e, true, s1, h1, by simp⟩

/-- A bare name that resolves to a plain value. -/
theorem runs_name_plain {node : Nat} {symbol c : Str} {s : Nat} {st s1 st' : St F S} {a v : V F}
    (hs : splitIdent symbol = [c]) (hm : hasMinus [c] = false)
    (hr : Runs H (call (.resolve s c)) (st.seen node) (some v, true) s1) (hv : Plain v) :
    Runs H (call (.value (.sym (.mk node symbol false [])) s)) st a st' ↔ a = v ∧ st' = s1 := by
  rw [runs_name hs hm]
  constructor
  · rintro ⟨e, b, s2, h1, h2⟩
    obtain ⟨h3, rfl⟩ := h1.det hr
    cases h3
    simp only [if_true, Option.getD_some, symValue_plain hv, negateP, Bool.false_eq_true, if_false] at h2
    exact runs_pure.1 h2
  · rintro ⟨rfl, rfl⟩
    refine ⟨_, _, _, hr, ?_⟩
    simp only [if_true, Option.getD_some, symValue_plain hv, negateP, Bool.false_eq_true, if_false]
    exact runs_pure.2 ⟨rfl, rfl⟩

/-- `FROM plugin(args)` for a registered plugin. -/
theorem runs_plugin_reg {name c : Str} {args : List Arg} {s : Nat} {st st' : St F S} {rows : List (V F)}
    (hs : splitIdent name = [c]) (hp : H.isPlugin c = true) (hd : (st.scp s).depth < 1000) :
    Runs H (call (.plugin (.mk name true args) s)) st rows st' ↔
      ∃ a s1, Runs H (buildArgsP s args) st a s1 ∧ Runs H (H.plugin c s a) s1 rows st' := by
  have ho : overflow (st.scp s).depth = false := by simp [overflow]; omega
  have h1 : ∀ r, Runs H (call (.evalSymbolWithArgs args (.obj (.plugin c)) s)) st r st' ↔
      ∃ a s1, Runs H (buildArgsP s args) st a s1 ∧ Runs H (H.plugin c s a) s1 r st' := by
    intro r
    conv => lhs; rw [runs_call]
    simp only [body]
    rw [runs_pb]
    simp only [Prim.step, ho, Bool.false_eq_true, if_false]
    exact runs_bind
  rw [← h1]
  conv => lhs; rw [runs_call]
  simp only [body, hs, findP, hp, true_and, if_true]
  exact runs_rb

end
end Vfilter.Vql
