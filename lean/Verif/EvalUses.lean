import Verif.EvalSimBody
/-!
# The names a program uses

`Use` lists the symbols and sources in a syntax tree.  A tree is related to itself if its symbols
are labelled consistently and only call admitted functions and plugins (`refl_select`).
-/
set_option linter.all false

namespace Vfilter.Vql

/-- A symbol (`_SymbolRef`, vfilter.go:1015-1029) or the source of a query (`Plugin`,
vfilter.go:776-788) in a syntax tree. -/
inductive Use where
  | sym (node : Nat) (symbol : Str) (called : Bool)
  | src (name : Str) (called : Bool)

mutual
/-- The names in an expression. -/
def usesAnd : AndE → List Use
  | .mk l r => usesOr l ++ usesAndTs r
def usesAndTs : List AndT → List Use
  | [] => []
  | .mk _ t :: r => usesOr t ++ usesAndTs r
def usesOr : OrE → List Use
  | .mk l r => usesCond l ++ usesOrTs r
def usesOrTs : List OrT → List Use
  | [] => []
  | .mk _ t :: r => usesCond t ++ usesOrTs r
def usesCond : Cond → List Use
  | .not c => usesCond c
  | .cmp l none => usesAdd l
  | .cmp l (some (.mk _ r)) => usesAdd l ++ usesAdd r
def usesAdd : AddE → List Use
  | .mk l r => usesMul l ++ usesAddTs r
def usesAddTs : List AddT → List Use
  | [] => []
  | .mk _ t :: r => usesMul t ++ usesAddTs r
def usesMul : MulE → List Use
  | .mk l r => usesMember l ++ usesMulTs r
def usesMulTs : List MulT → List Use
  | [] => []
  | .mk _ t :: r => usesValue t ++ usesMulTs r
def usesMember : Member → List Use
  | .mk l r => usesValue l ++ usesMTerms r
def usesMTerms : List MTerm → List Use
  | [] => []
  | .range a b :: r => usesOpt a ++ usesOpt b ++ usesMTerms r
  | .index i :: r => usesValue i ++ usesMTerms r
  | .field _ :: r => usesMTerms r
  | .empty :: r => usesMTerms r
def usesOpt : Option Value → List Use
  | none => []
  | some v => usesValue v
def usesComma : Comma → List Use
  | .mk l r => usesAnd l ++ usesCommaTs r
def usesCommaTs : List CommaT → List Use
  | [] => []
  | .mk none :: r => usesCommaTs r
  | .mk (some e) :: r => usesAnd e ++ usesCommaTs r
def usesValue : Value → List Use
  | .sym s => usesSym s
  | .sub c => usesComma c
  | .str _ => []
  | .num _ => []
  | .bool _ => []
  | .null => []
def usesSym : Sym → List Use
  | .mk n s called p => .sym n s called :: usesArgs p
def usesArgs : List Arg → List Use
  | [] => []
  | .mk _ v :: r => usesArgV v ++ usesArgs r
def usesArgV : ArgV → List Use
  | .expr e => usesAnd e
  | .select q => usesSelect q
  | .array c => usesComma c
  | .empty => []
/-- The names in a query. -/
def usesSelect : Select → List Use
  | .mk _ _ cols from_ wh gb _ _ => usesCols cols ++ usesPlugin from_ ++ usesOptC wh ++ usesOptC gb
def usesOptC : Option Comma → List Use
  | none => []
  | some c => usesComma c
def usesCols : List Col → List Use
  | [] => []
  | .mk b _ :: r => usesColBody b ++ usesCols r
def usesColBody : ColBody → List Use
  | .star => []
  | .expr e => usesAnd e
  | .select q => usesSelect q
def usesPlugin : Plugin → List Use
  | .mk n called p => .src n called :: usesArgs p
end

section
variable {F S : Type} (H : Host F S) (Z : Cfg S)

/-- The name may be used: the symbol belongs to its node, and what it calls is admitted. -/
def UseOk : Use → Prop
  | .sym n s called => Z.nd n n (splitIdent s) ∧
      ∀ c, trimMinus (splitIdent s) = [c] → called = true → H.isFn c = true → Z.okFn c
  | .src n called => ∀ c, splitIdent n = [c] → called = true → H.isPlugin c = true → Z.okPl c

variable {H Z}

/-- All names of a part may be used if all names of the whole may be. -/
theorem ok_left {a b : List Use} (h : ∀ u ∈ a ++ b, UseOk H Z u) : ∀ u ∈ a, UseOk H Z u :=
  fun u hu => h u (List.mem_append.2 (Or.inl hu))
theorem ok_right {a b : List Use} (h : ∀ u ∈ a ++ b, UseOk H Z u) : ∀ u ∈ b, UseOk H Z u :=
  fun u hu => h u (List.mem_append.2 (Or.inr hu))
theorem ok_head {a : Use} {b : List Use} (h : ∀ u ∈ a :: b, UseOk H Z u) : UseOk H Z a := h a (by simp)
theorem ok_tail {a : Use} {b : List Use} (h : ∀ u ∈ a :: b, UseOk H Z u) : ∀ u ∈ b, UseOk H Z u :=
  fun u hu => h u (List.mem_cons_of_mem _ hu)

mutual
theorem refl_and : ∀ (e : AndE), (∀ u ∈ usesAnd e, UseOk H Z u) → AndR H Z e e
  | .mk l r, h => by
    rw [usesAnd] at h
    exact .mk (refl_or l (ok_left h)) (refl_andTs r (ok_right h))
theorem refl_andTs : ∀ (e : List AndT), (∀ u ∈ usesAndTs e, UseOk H Z u) → All2 (AndTR H Z) e e
  | [], _ => .nil
  | .mk _ t :: r, h => by
    rw [usesAndTs] at h
    exact .cons (.mk Iff.rfl (refl_or t (ok_left h))) (refl_andTs r (ok_right h))
theorem refl_or : ∀ (e : OrE), (∀ u ∈ usesOr e, UseOk H Z u) → OrR H Z e e
  | .mk l r, h => by
    rw [usesOr] at h
    exact .mk (refl_cond l (ok_left h)) (refl_orTs r (ok_right h))
theorem refl_orTs : ∀ (e : List OrT), (∀ u ∈ usesOrTs e, UseOk H Z u) → All2 (OrTR H Z) e e
  | [], _ => .nil
  | .mk _ t :: r, h => by
    rw [usesOrTs] at h
    exact .cons (.mk Iff.rfl (refl_cond t (ok_left h))) (refl_orTs r (ok_right h))
theorem refl_cond : ∀ (e : Cond), (∀ u ∈ usesCond e, UseOk H Z u) → CondR H Z e e
  | .not c, h => by
    rw [usesCond] at h
    exact .not (refl_cond c h)
  | .cmp l none, h => by
    rw [usesCond] at h
    exact .one (refl_add l h)
  | .cmp l (some (.mk _ r)), h => by
    rw [usesCond] at h
    exact .cmp (refl_add l (ok_left h)) (refl_add r (ok_right h))
theorem refl_add : ∀ (e : AddE), (∀ u ∈ usesAdd e, UseOk H Z u) → AddR H Z e e
  | .mk l r, h => by
    rw [usesAdd] at h
    exact .mk (refl_mul l (ok_left h)) (refl_addTs r (ok_right h))
theorem refl_addTs : ∀ (e : List AddT), (∀ u ∈ usesAddTs e, UseOk H Z u) → All2 (AddTR H Z) e e
  | [], _ => .nil
  | .mk _ t :: r, h => by
    rw [usesAddTs] at h
    exact .cons (.mk (refl_mul t (ok_left h))) (refl_addTs r (ok_right h))
theorem refl_mul : ∀ (e : MulE), (∀ u ∈ usesMul e, UseOk H Z u) → MulR H Z e e
  | .mk l r, h => by
    rw [usesMul] at h
    exact .mk (refl_member l (ok_left h)) (refl_mulTs r (ok_right h))
theorem refl_mulTs : ∀ (e : List MulT), (∀ u ∈ usesMulTs e, UseOk H Z u) → All2 (MulTR H Z) e e
  | [], _ => .nil
  | .mk _ t :: r, h => by
    rw [usesMulTs] at h
    exact .cons (.mk (refl_value t (ok_left h))) (refl_mulTs r (ok_right h))
theorem refl_member : ∀ (e : Member), (∀ u ∈ usesMember e, UseOk H Z u) → MemberR H Z e e
  | .mk l r, h => by
    rw [usesMember] at h
    exact .mk (refl_value l (ok_left h)) (refl_mTerms r (ok_right h))
theorem refl_mTerms : ∀ (e : List MTerm), (∀ u ∈ usesMTerms e, UseOk H Z u) → All2 (MTermR H Z) e e
  | [], _ => .nil
  | .range a b :: r, h => by
    rw [usesMTerms] at h
    exact .cons (.range (refl_opt a (ok_left (ok_left h))) (refl_opt b (ok_right (ok_left h)))) (refl_mTerms r (ok_right h))
  | .index i :: r, h => by
    rw [usesMTerms] at h
    exact .cons (.index (refl_value i (ok_left h))) (refl_mTerms r (ok_right h))
  | .field _ :: r, h => by
    rw [usesMTerms] at h
    exact .cons (.field rfl) (refl_mTerms r h)
  | .empty :: r, h => by
    rw [usesMTerms] at h
    exact .cons .empty (refl_mTerms r h)
theorem refl_opt : ∀ (e : Option Value), (∀ u ∈ usesOpt e, UseOk H Z u) → Opt2 (ValueR H Z) e e
  | none, _ => .none
  | some v, h => by
    rw [usesOpt] at h
    exact .some (refl_value v h)
theorem refl_comma : ∀ (e : Comma), (∀ u ∈ usesComma e, UseOk H Z u) → CommaR H Z e e
  | .mk l r, h => by
    rw [usesComma] at h
    exact .mk (refl_and l (ok_left h)) (refl_commaTs r (ok_right h))
theorem refl_commaTs : ∀ (e : List CommaT), (∀ u ∈ usesCommaTs e, UseOk H Z u) → All2 (CommaTR H Z) e e
  | [], _ => .nil
  | .mk none :: r, h => by
    rw [usesCommaTs] at h
    exact .cons .none (refl_commaTs r h)
  | .mk (some e) :: r, h => by
    rw [usesCommaTs] at h
    exact .cons (.some (refl_and e (ok_left h))) (refl_commaTs r (ok_right h))
theorem refl_value : ∀ (e : Value), (∀ u ∈ usesValue e, UseOk H Z u) → ValueR H Z e e
  | .sym s, h => by
    rw [usesValue] at h
    exact .sym (refl_sym s h)
  | .sub c, h => by
    rw [usesValue] at h
    exact .sub (refl_comma c h)
  | .str _, _ => .str rfl
  | .num _, _ => .num rfl
  | .bool _, _ => .bool Iff.rfl
  | .null, _ => .null
theorem refl_sym : ∀ (e : Sym), (∀ u ∈ usesSym e, UseOk H Z u) → SymR H Z e e
  | .mk n s called p, h => by
    rw [usesSym] at h
    exact .mk (ok_head h).1 rfl (ok_head h).2 (refl_args p (ok_tail h))
theorem refl_args : ∀ (e : List Arg), (∀ u ∈ usesArgs e, UseOk H Z u) → All2 (ArgR H Z) e e
  | [], _ => .nil
  | .mk _ v :: r, h => by
    rw [usesArgs] at h
    exact .cons (.mk (refl_argV v (ok_left h))) (refl_args r (ok_right h))
theorem refl_argV : ∀ (e : ArgV), (∀ u ∈ usesArgV e, UseOk H Z u) → ArgVR H Z e e
  | .expr e, h => by
    rw [usesArgV] at h
    exact .expr (refl_and e h)
  | .select q, h => by
    rw [usesArgV] at h
    exact .select (refl_select q h)
  | .array c, h => by
    rw [usesArgV] at h
    exact .array (refl_comma c h)
  | .empty, _ => .empty
theorem refl_select : ∀ (e : Select), (∀ u ∈ usesSelect e, UseOk H Z u) → SelectR H Z e e
  | .mk _ _ cols from_ wh gb _ _, h => by
    rw [usesSelect] at h
    exact .mk (refl_cols cols (ok_left (ok_left (ok_left h)))) (refl_plugin from_ (ok_right (ok_left (ok_left h))))
      (refl_optC wh (ok_right (ok_left h))) (refl_optC gb (ok_right h))
theorem refl_optC : ∀ (e : Option Comma), (∀ u ∈ usesOptC e, UseOk H Z u) → Opt2 (CommaR H Z) e e
  | none, _ => .none
  | some c, h => by
    rw [usesOptC] at h
    exact .some (refl_comma c h)
theorem refl_cols : ∀ (e : List Col), (∀ u ∈ usesCols e, UseOk H Z u) → All2 (ColR H Z) e e
  | [], _ => .nil
  | .mk b _ :: r, h => by
    rw [usesCols] at h
    exact .cons (.mk (refl_colBody b (ok_left h)) rfl) (refl_cols r (ok_right h))
theorem refl_colBody : ∀ (e : ColBody), (∀ u ∈ usesColBody e, UseOk H Z u) → ColBodyR H Z e e
  | .star, _ => .star
  | .expr e, h => by
    rw [usesColBody] at h
    exact .expr (refl_and e h)
  | .select q, h => by
    rw [usesColBody] at h
    exact .select (refl_select q h)
theorem refl_plugin : ∀ (e : Plugin), (∀ u ∈ usesPlugin e, UseOk H Z u) → PluginR H Z e e
  | .mk n called p, h => by
    rw [usesPlugin] at h
    exact .mk rfl (ok_head h) (refl_args p (ok_tail h))
end

end
end Vfilter.Vql
