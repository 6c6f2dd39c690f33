import Verif.EvalReprint
import Verif.EvalSimBody
/-!
# Every symbol of a parsed program has its own number
-/
set_option linter.all false

namespace Vfilter.Fmt
open Vql

/-- The numbers of the symbols. -/
def nodesOf (us : List Use) : List Nat :=
  us.filterMap fun u => match u with | .sym n _ _ => some n | .src _ _ => none

/-- The symbols have different numbers, from `a` up to but not including `b`. -/
structure Numbered (a b : Nat) (us : List Use) : Prop where
  le : a ≤ b
  range : ∀ k ∈ nodesOf us, a ≤ k ∧ k < b
  nodup : (nodesOf us).Nodup

theorem Numbered.nil (a : Nat) : Numbered a a [] := ⟨Nat.le_refl _, by simp [nodesOf], by simp [nodesOf]⟩

theorem Numbered.append {a b c : Nat} {us vs : List Use} (h : Numbered a b us) (h' : Numbered b c vs) :
    Numbered a c (us ++ vs) where
  le := Nat.le_trans h.le h'.le
  range := by
    intro k hk
    simp only [nodesOf, List.filterMap_append, List.mem_append] at hk
    rcases hk with hk | hk
    · have := h.range k hk
      exact ⟨this.1, Nat.lt_of_lt_of_le this.2 h'.le⟩
    · have := h'.range k hk
      exact ⟨Nat.le_trans h.le this.1, this.2⟩
  nodup := by
    simp only [nodesOf, List.filterMap_append]
    refine List.nodup_append.2 ⟨h.nodup, h'.nodup, ?_⟩
    intro x hx y hy he
    subst he
    have h1 := h.range x hx
    have h2 := h'.range x hy
    omega

theorem Numbered.sym {a b : Nat} {us : List Use} (h : Numbered (a + 1) b us) (s : Str) (c : Bool) :
    Numbered a b (.sym a s c :: us) where
  le := by have := h.le; omega
  range := by
    intro k hk
    simp only [nodesOf, List.filterMap_cons, List.mem_cons] at hk
    rcases hk with rfl | hk
    · have := h.le
      omega
    · have := h.range k hk
      omega
  nodup := by
    simp only [nodesOf, List.filterMap_cons, List.nodup_cons]
    refine ⟨fun hk => ?_, h.nodup⟩
    have := h.range a hk
    omega

theorem Numbered.src {a b : Nat} {us : List Use} (h : Numbered a b us) (s : Str) (c : Bool) :
    Numbered a b (.src s c :: us) where
  le := h.le
  range := by
    intro k hk
    simp only [nodesOf, List.filterMap_cons] at hk
    exact h.range k hk
  nodup := by
    simp only [nodesOf, List.filterMap_cons]
    exact h.nodup

mutual
theorem nu_and : ∀ (e : CAnd) (n : Nat), Numbered n (lowAnd e n).2 (usesAnd (lowAnd e n).1)
  | .mk cs l rs, n => by
    simp only [lowAnd]
    rw [usesAnd]
    exact (nu_or l n).append (nu_andTs rs _)
theorem nu_andTs : ∀ (e : List CAndT) (n : Nat), Numbered n (lowAndTs e n).2 (usesAndTs (lowAndTs e n).1)
  | [], n => .nil n
  | .mk op t :: rs, n => by
    simp only [lowAndTs]
    rw [usesAndTs]
    exact (nu_or t n).append (nu_andTs rs _)
theorem nu_or : ∀ (e : COr) (n : Nat), Numbered n (lowOr e n).2 (usesOr (lowOr e n).1)
  | .mk cs l rs, n => by
    simp only [lowOr]
    rw [usesOr]
    exact (nu_cond l n).append (nu_orTs rs _)
theorem nu_orTs : ∀ (e : List COrT) (n : Nat), Numbered n (lowOrTs e n).2 (usesOrTs (lowOrTs e n).1)
  | [], n => .nil n
  | .mk op t :: rs, n => by
    simp only [lowOrTs]
    rw [usesOrTs]
    exact (nu_cond t n).append (nu_orTs rs _)
theorem nu_cond : ∀ (e : CCond) (n : Nat), Numbered n (lowCond e n).2 (usesCond (lowCond e n).1)
  | .not cs c, n => by
    simp only [lowCond]
    rw [usesCond]
    exact nu_cond c n
  | .cmp cs l none, n => by
    simp only [lowCond]
    rw [usesCond]
    exact nu_add l n
  | .cmp cs l (some (.mk op r)), n => by
    simp only [lowCond]
    rw [usesCond]
    exact (nu_add l n).append (nu_add r _)
theorem nu_add : ∀ (e : CAdd) (n : Nat), Numbered n (lowAdd e n).2 (usesAdd (lowAdd e n).1)
  | .mk cs l rs, n => by
    simp only [lowAdd]
    rw [usesAdd]
    exact (nu_mul l n).append (nu_addTs rs _)
theorem nu_addTs : ∀ (e : List CAddT) (n : Nat), Numbered n (lowAddTs e n).2 (usesAddTs (lowAddTs e n).1)
  | [], n => .nil n
  | .mk op t :: rs, n => by
    simp only [lowAddTs]
    rw [usesAddTs]
    exact (nu_mul t n).append (nu_addTs rs _)
theorem nu_mul : ∀ (e : CMul) (n : Nat), Numbered n (lowMul e n).2 (usesMul (lowMul e n).1)
  | .mk cs l rs, n => by
    simp only [lowMul]
    rw [usesMul]
    exact (nu_member l n).append (nu_mulTs rs _)
theorem nu_mulTs : ∀ (e : List CMulT) (n : Nat), Numbered n (lowMulTs e n).2 (usesMulTs (lowMulTs e n).1)
  | [], n => .nil n
  | .mk op t :: rs, n => by
    simp only [lowMulTs]
    rw [usesMulTs]
    exact (nu_val t n).append (nu_mulTs rs _)
theorem nu_member : ∀ (e : CMember) (n : Nat), Numbered n (lowMember e n).2 (usesMember (lowMember e n).1)
  | .mk cs l rs, n => by
    simp only [lowMember]
    rw [usesMember]
    exact (nu_val l n).append (nu_mterms rs _)
theorem nu_mterms : ∀ (e : List CMTerm) (n : Nat), Numbered n (lowMTerms e n).2 (usesMTerms (lowMTerms e n).1)
  | [], n => .nil n
  | .range i j :: rs, n => by
    simp only [lowMTerms]
    rw [usesMTerms]
    exact ((nu_oval i n).append (nu_oval j _)).append (nu_mterms rs _)
  | .index i :: rs, n => by
    simp only [lowMTerms]
    rw [usesMTerms]
    exact (nu_val i n).append (nu_mterms rs _)
  | .field f :: rs, n => by
    simp only [lowMTerms]
    rw [usesMTerms]
    exact nu_mterms rs _
  | .empty :: rs, n => by
    simp only [lowMTerms]
    rw [usesMTerms]
    exact nu_mterms rs _
theorem nu_oval : ∀ (e : Option CVal) (n : Nat), Numbered n (lowOVal e n).2 (usesOpt (lowOVal e n).1)
  | none, n => .nil n
  | some v, n => nu_val v n
theorem nu_comma : ∀ (e : CComma) (n : Nat), Numbered n (lowComma e n).2 (usesComma (lowComma e n).1)
  | .mk cs l rs, n => by
    simp only [lowComma]
    rw [usesComma]
    exact (nu_and l n).append (nu_commaTs rs _)
theorem nu_commaTs : ∀ (e : List CCommaT) (n : Nat), Numbered n (lowCommaTs e n).2 (usesCommaTs (lowCommaTs e n).1)
  | [], n => .nil n
  | .mk c1 c2 none :: rs, n => by
    simp only [lowCommaTs]
    rw [usesCommaTs]
    exact nu_commaTs rs _
  | .mk c1 c2 (some t) :: rs, n => by
    simp only [lowCommaTs]
    rw [usesCommaTs]
    exact (nu_and t n).append (nu_commaTs rs _)
theorem nu_val : ∀ (e : CVal) (n : Nat), Numbered n (lowVal e n).2 (usesValue (lowVal e n).1)
  | .mk cs b, n => nu_valB b n
theorem nu_valB : ∀ (e : CValB) (n : Nat), Numbered n (lowValB e n).2 (usesValue (lowValB e n).1)
  | .sym s, n => nu_sym s n
  | .sub c, n => nu_comma c n
  | .str t, n => .nil n
  | .num t, n => .nil n
  | .bool t, n => .nil n
  | .null, n => .nil n
theorem nu_sym : ∀ (e : CSym) (n : Nat), Numbered n (lowSym e n).2 (usesSym (lowSym e n).1)
  | .mk cs s c ps, n => by
    simp only [lowSym]
    rw [usesSym]
    exact (nu_args ps (n + 1)).sym s c
theorem nu_args : ∀ (e : List CArg) (n : Nat), Numbered n (lowArgs e n).2 (usesArgs (lowArgs e n).1)
  | [], n => .nil n
  | .mk cs name v :: as, n => by
    simp only [lowArgs, lowArg]
    rw [usesArgs]
    exact (nu_argV v n).append (nu_args as _)
theorem nu_argV : ∀ (e : CArgV) (n : Nat), Numbered n (lowArgV e n).2 (usesArgV (lowArgV e n).1)
  | .expr e, n => nu_and e n
  | .select q, n => nu_select q n
  | .array c, n => nu_comma c n
  | .empty, n => .nil n
theorem nu_ocomma : ∀ (e : Option CComma) (n : Nat), Numbered n (lowOComma e n).2 (usesOptC (lowOComma e n).1)
  | none, n => .nil n
  | some v, n => nu_comma v n
theorem nu_select : ∀ (e : CSelect) (n : Nat), Numbered n (lowSelect e n).2 (usesSelect (lowSelect e n).1)
  | .mk cs ex all cols fr wh gb ob li, n => by
    simp only [lowSelect]
    rw [usesSelect]
    exact (((nu_cols cols n).append (nu_plugin fr _)).append (nu_ocomma wh _)).append (nu_ocomma gb _)
theorem nu_cols : ∀ (e : List CCol) (n : Nat), Numbered n (lowCols e n).2 (usesCols (lowCols e n).1)
  | [], n => .nil n
  | .mk cs b a :: r, n => by
    simp only [lowCols]
    rw [usesCols]
    exact (nu_colB b n).append (nu_cols r _)
theorem nu_colB : ∀ (e : CColB) (n : Nat), Numbered n (lowColB e n).2 (usesColBody (lowColB e n).1)
  | .star, n => .nil n
  | .expr e, n => nu_and e n
  | .select q, n => nu_select q n
theorem nu_plugin : ∀ (e : CPlugin) (n : Nat), Numbered n (lowPlugin e n).2 (usesPlugin (lowPlugin e n).1)
  | .mk s c as, n => by
    simp only [lowPlugin]
    rw [usesPlugin]
    exact (nu_args as n).src s c
end

/-- The names used in a LET's parameters. -/
def usesParams : List LetParam → List Use
  | [] => []
  | p :: ps => (match p.dflt with | none => [] | some v => usesArgV v) ++ usesParams ps

/-- The names used in a statement. -/
def usesStmt : Stmt → List Use
  | .let_ _ _ ps _ (.expr e) => usesParams ps ++ usesAnd e
  | .let_ _ _ ps _ (.select q) => usesParams ps ++ usesSelect q
  | .query q => usesSelect q

theorem nu_params : ∀ (ps : List CLetParam) (n : Nat), Numbered n (lowParams ps n).2 (usesParams (lowParams ps n).1)
  | [], n => .nil n
  | .name s :: ps, n => by
    simp only [lowParams, lowParam, usesParams, List.nil_append]
    exact nu_params ps n
  | .dflt (.mk _ s v) :: ps, n => by
    simp only [lowParams, lowParam, usesParams]
    exact (nu_argV v n).append (nu_params ps _)

theorem nu_stmt (t : CStmt) (n : Nat) : Numbered n (lowStmt t n).2 (usesStmt (lowStmt t n).1) := by
  cases t with
  | query cs q => exact nu_select q n
  | let_ cs name called ps op b =>
    cases b with
    | expr e =>
      simp only [lowStmt, usesStmt]
      exact (nu_params ps n).append (nu_and e _)
    | select q =>
      simp only [lowStmt, usesStmt]
      exact (nu_params ps n).append (nu_select q _)

/-- The names used in a program. -/
def usesStmts (l : List Stmt) : List Use := (l.map usesStmt).flatten

theorem nu_stmts : ∀ (ts : List CStmt) (n : Nat), ∃ m, Numbered n m (usesStmts (lowStmts ts n))
  | [], n => ⟨n, .nil n⟩
  | t :: ts, n => by
    obtain ⟨m, h⟩ := nu_stmts ts (lowStmt t n).2
    refine ⟨m, ?_⟩
    simp only [lowStmts, usesStmts, List.map_cons, List.flatten_cons]
    exact (nu_stmt t n).append h

/-- The name at a number. -/
def nameAt (us : List Use) (n : Nat) : List Str :=
  match us.find? (fun u => match u with | .sym m _ _ => m == n | .src _ _ => false) with
  | some (.sym _ s _) => splitIdent s
  | _ => []

theorem nameAt_of_numbered {us : List Use} (h : (nodesOf us).Nodup) {n : Nat} {s : Str} {c : Bool}
    (hm : Use.sym n s c ∈ us) : nameAt us n = splitIdent s := by
  induction us with
  | nil => simp at hm
  | cons u us ih =>
    unfold nameAt
    rw [List.find?_cons]
    cases u with
    | src m d =>
      simp only
      have hm' : Use.sym n s c ∈ us := by simpa using hm
      have h' : (nodesOf us).Nodup := by simpa only [nodesOf, List.filterMap_cons] using h
      have := ih h' hm'
      unfold nameAt at this
      exact this
    | sym m t d =>
      have h' : m ∉ nodesOf us ∧ (nodesOf us).Nodup := by
        simpa only [nodesOf, List.filterMap_cons, List.nodup_cons] using h
      by_cases he : m = n
      · subst he
        simp only [beq_self_eq_true]
        rcases List.mem_cons.1 hm with heq | hm
        · cases heq
          rfl
        · exact absurd (show m ∈ nodesOf us from List.mem_filterMap.2 ⟨_, hm, rfl⟩) h'.1
      · have : (m == n) = false := by simp [he]
        simp only [this]
        have hm' : Use.sym n s c ∈ us := by
          rcases List.mem_cons.1 hm with heq | hm
          · cases heq
            exact absurd rfl he
          · exact hm
        have := ih h'.2 hm'
        unfold nameAt at this
        exact this

/-! ## Statements and their printed forms -/

section
variable {F S : Type} {H : Host F S} {Z : Cfg S} (hp : Printing H)
include hp

theorem rp_params : ∀ (ps : List CLetParam) (n : Nat), (∀ p ∈ ps, kParam numberText p) →
    (∀ p ∈ ps, ∀ a, p = .dflt a → wArg id limitVal a) →
    (∀ u ∈ usesParams (lowParams ps n).1, UseOk H Z u) →
    Both (All2 (ParamR H Z)) (lowParams ps n) (lowParams (ps.map (mParam numberText)) n)
  | [], n, k, w, hu => ⟨.nil, .nil, rfl⟩
  | .name s :: ps, n, k, w, hu => by
    simp only [lowParams, lowParam, usesParams, List.nil_append, List.map_cons, mParam] at hu ⊢
    have h := rp_params ps n (fun p h => k p (by simp [h])) (fun p h => w p (by simp [h])) hu
    exact ⟨.cons ⟨rfl, .none⟩ h.1, .cons ⟨rfl, .none⟩ h.2.1, h.2.2⟩
  | .dflt (.mk cs s v) :: ps, n, k, w, hu => by
    simp only [lowParams, lowParam, usesParams, List.map_cons, mParam, mArg] at hu ⊢
    have h1 := rp_argV hp v n (k (.dflt (.mk cs s v)) (by simp)) (w (.dflt (.mk cs s v)) (by simp) _ rfl).2.2 (ok_left hu)
    have h2 := rp_params ps _ (fun p h => k p (by simp [h])) (fun p h => w p (by simp [h])) (ok_right hu)
    rw [h1.2.2]
    exact ⟨.cons ⟨rfl, .some h1.1⟩ h2.1, .cons ⟨rfl, .some h1.2.1⟩ h2.2.1, h2.2.2⟩

theorem rp_stmt (t : CStmt) (n : Nat) (k : kStmt numberText t) (w : wStmt id limitVal t)
    (hu : ∀ u ∈ usesStmt (lowStmt t n).1, UseOk H Z u) :
    Both (StmtR H Z) (lowStmt t n) (lowStmt (mStmt numberText t) n) := by
  cases t with
  | query cs q =>
    simp only [lowStmt, usesStmt, mStmt] at hu ⊢
    have h := rp_select hp q n k w.2 hu
    have ht : H.stmtText (lowSelect q n).1 = H.stmtText (lowSelect (mSelect numberText q) n).1 := by
      rw [hp.text]
      unfold statementText
      rw [u_select id limitVal limFits_limitVal q n w.2,
        u_select numberText limitVal limFits_limitVal _ n (y_select numberText limitVal q w.2 k)]
      unfold formatStmt
      have := z_stmt numberText isBetter (.query [] q) k
      simp only [mStmt] at this
      simp only [this]
    exact ⟨.query h.1 ht, .query h.2.1 ht.symm, h.2.2⟩
  | let_ cs name called ps op b =>
    obtain ⟨_, k2, _, k4⟩ := k
    obtain ⟨_, _, _, w4, _, w6⟩ := w
    have wp : ∀ p ∈ ps, ∀ a, p = .dflt a → wArg id limitVal a := by
      rintro p hp a rfl
      exact (w4 _ hp).1
    cases b with
    | expr e =>
      simp only [lowStmt, usesStmt, mStmt, mBody] at hu ⊢
      have h1 := rp_params hp ps n k2 wp (ok_left hu)
      have h2 := rp_and hp e _ k4 w6 (ok_right hu)
      rw [h1.2.2]
      exact ⟨.expr rfl h1.1 h2.1, .expr rfl h1.2.1 h2.2.1, h2.2.2⟩
    | select e =>
      simp only [lowStmt, usesStmt, mStmt, mBody] at hu ⊢
      have h1 := rp_params hp ps n k2 wp (ok_left hu)
      have h2 := rp_select hp e _ k4 w6 (ok_right hu)
      rw [h1.2.2]
      exact ⟨.select rfl h1.1 h2.1, .select rfl h1.2.1 h2.2.1, h2.2.2⟩

theorem rp_stmts : ∀ (ts : List CStmt) (n : Nat), (∀ t ∈ ts, kStmt numberText t ∧ wStmt id limitVal t) →
    (∀ u ∈ usesStmts (lowStmts ts n), UseOk H Z u) →
    All2 (StmtR H Z) (lowStmts ts n) (lowStmts (ts.map (mStmt numberText)) n) ∧
    All2 (StmtR H Z) (lowStmts (ts.map (mStmt numberText)) n) (lowStmts ts n)
  | [], n, k, hu => ⟨.nil, .nil⟩
  | t :: ts, n, k, hu => by
    simp only [lowStmts, usesStmts, List.map_cons, List.flatten_cons] at hu ⊢
    have h1 := rp_stmt hp t n (k t (by simp)).1 (k t (by simp)).2 (ok_left hu)
    have h2 := rp_stmts ts (lowStmt t n).2 (fun t h => k t (by simp [h])) (ok_right hu)
    rw [h1.2.2]
    exact ⟨.cons h1.1 h2.1, .cons h1.2.1 h2.2⟩
end
end Vfilter.Fmt
