import Verif.EvalNumbered
import Verif.EvalSimStd
import Verif.Props.EvalSame
import Verif.Props.RoundTrip
/-!
# C49: a program that is formatted and parsed again evaluates alike

The syntax trees differ in the written form of numbers only (`C49_parse_format_parse_partial`).
Here the two programs are evaluated: every statement of the second gives the rows of the first.
-/
set_option linter.all false

namespace Vfilter.Fmt
open Vql

section
variable {F S : Type}

/-- Everything is compared: aggregates, call sites, the state of the application. -/
def exact (tbl : Nat → List Str) : Cfg S where
  ag := true
  okFn _ := True
  okPl _ := True
  nd n n' c := n = n' ∧ c = tbl n
  hs a b := a = b
  left := by
    rintro n n' m' c d ⟨rfl, rfl⟩ ⟨rfl, rfl⟩
    exact ⟨rfl, rfl⟩
  right := by
    rintro n n' m' c d ⟨rfl, rfl⟩ ⟨rfl, rfl⟩
    exact ⟨rfl, rfl⟩
  same := by
    rintro _ n n' c ⟨rfl, _⟩
    rfl

variable [FloatOps F] {H : Host F S}

/-- A scope to evaluate a freshly parsed program in: a root scope, with data as variables, no
aggregates so far and nothing remembered for the program's nodes. -/
structure Fresh (st : Vql.St F S) (s : Nat) : Prop where
  lt : s < st.scopes.length
  parent : (st.scp s).parent = none
  ag : (st.scp s).ag = none
  vars : DataL (st.scp s).vars
  fns : st.fns = []

theorem fresh_r {tbl : Nat → List Str} {st : Vql.St F S} {s : Nat} (h : Fresh st s) :
    StR H (exact tbl) (Corr.one s s) st st where
  sc := {
    get := by
      rintro i j ⟨rfl, rfl⟩
      refine ⟨st.scp j, st.scp j, ?_, ?_, dataL_r _ h.vars, rfl, fun _ => ?_, fun _ => ?_⟩
      · simp [St.scp, List.getElem?_eq_getElem h.lt]
      · simp [St.scp, List.getElem?_eq_getElem h.lt]
      · rw [h.parent]
        exact .none
      · rw [h.ag]
        exact .none
    left := by
      rintro i j k ⟨rfl, rfl⟩ ⟨_, rfl⟩
      rfl
    right := by
      rintro i j k ⟨rfl, rfl⟩ ⟨rfl, _⟩
      rfl }
  lz := ⟨fun h => h.elim, fun h => h.elim, fun h => h.elim⟩
  rw := ⟨fun h => h.elim, fun h => h.elim, fun h => h.elim⟩
  si := ⟨fun h => h.elim, fun h => h.elim, fun h => h.elim⟩
  cx := ⟨fun h => h.elim, fun h => h.elim, fun h => h.elim⟩
  nd := by
    rintro n n' c ⟨rfl, rfl⟩
    refine ⟨fun p hp => ?_, fun p hp => ?_, fun _ => rfl⟩ <;> (rw [h.fns] at hp; simp at hp)
  hs := rfl

theorem dataLL_eq {Z : Cfg S} {W : Corr} {a b : List (List (V F))} (hd : ∀ l ∈ a, DataL l)
    (h : All2 (VRL H Z W) a b) : b = a := by
  induction h with
  | nil => rfl
  | cons h1 _ ih => rw [← dataL_eq (hd _ (by simp)) h1, ih (fun l h => hd l (by simp [h]))]

/-- **C49** Programs.  `ts` is a list of parsed statements; each is formatted and parsed again, which
gives `ts'`.  Both are evaluated in the same fresh scope: one finishes if and only if the other does,
and every statement gives the same rows.  Aggregates, stored queries, materialised queries and
functions with parameters are included; `kStmt` leaves out what formatting loses (refuted in
`Verif.Props.RoundTrip`), and the rows are data. -/
theorem C49_same_rows_partial (hp : Printing H) (hH : ∀ tbl, HostR H (exact tbl)) {ts ts' : List CStmt}
    (ht : ∀ t ∈ ts, (∃ text, parse limitVal text = some t) ∧ kStmt numberText t)
    (ht' : ts.map (fun t => parse limitVal (formatStmt numberText t)) = ts'.map some)
    {st : Vql.St F S} {s : Nat} (hst : Fresh st s) (fuel node : Nat) (rows : List (List (V F)))
    (hd : ∀ l ∈ rows, DataL l) :
    (∃ s1, runStmts H fuel (lowStmts ts node) s st = some (rows, s1)) ↔
      ∃ s1, runStmts H fuel (lowStmts ts' node) s st = some (rows, s1) := by
  have hts : ts' = ts.map (mStmt numberText) := by
    clear hst
    induction ts generalizing ts' with
    | nil =>
      cases ts' with
      | nil => rfl
      | cons => simp at ht'
    | cons t ts ih =>
      cases ts' with
      | nil => simp at ht'
      | cons t' ts' =>
        simp only [List.map_cons, List.cons.injEq] at ht'
        obtain ⟨⟨text, h1⟩, h2⟩ := ht t (by simp)
        have h3 := (C49_parse_format_parse_partial text t h1 h2).1
        rw [h3] at ht'
        rw [List.map_cons, ← ih (fun t h => ht t (by simp [h])) ht'.2]
        simp only [Option.some.injEq] at ht'
        rw [ht'.1]
  subst hts
  have hkw : ∀ t ∈ ts, kStmt numberText t ∧ wStmt id limitVal t := by
    intro t hm
    obtain ⟨⟨text, h1⟩, h2⟩ := ht t hm
    exact ⟨h2, parse_wf numberText limitVal limOK_limitVal h1 h2⟩
  obtain ⟨m, hn⟩ := nu_stmts ts node
  have hu : ∀ u ∈ usesStmts (lowStmts ts node), UseOk H (exact (nameAt (usesStmts (lowStmts ts node)))) u := by
    intro u hm
    cases u with
    | sym n s c => exact ⟨⟨rfl, (nameAt_of_numbered hn.nodup hm).symm⟩, fun _ _ _ _ => trivial⟩
    | src n c => exact fun _ _ _ _ => trivial
  obtain ⟨h1, h2⟩ := rp_stmts hp ts node hkw hu
  constructor
  · rintro ⟨s1, h⟩
    obtain ⟨r, s2, W, h3, _, _, h4⟩ := runStmts_sim (hH _) fuel h1 (W := Corr.one s s) (And.intro rfl rfl) st st
      (fresh_r hst) rows s1 h
    exact ⟨s2, dataLL_eq hd h4 ▸ h3⟩
  · rintro ⟨s1, h⟩
    obtain ⟨r, s2, W, h3, _, _, h4⟩ := runStmts_sim (hH _) fuel h2 (W := Corr.one s s) (And.intro rfl rfl) st st
      (fresh_r hst) rows s1 h
    exact ⟨s2, dataLL_eq hd h4 ▸ h3⟩

end

/-- The functions and plugins of the package, with printing and matching supplied by the caller. -/
def packageHost (matchF : V F64 → V F64 → Bool) (fmtV : V F64 → Str) (fuel : Nat) : Host F64 Unit :=
  libHost {} matchF fmtV (columnName numberText) numberV (statementText numberText) fuel {}

theorem package_printing (matchF : V F64 → V F64 → Bool) (fmtV : V F64 → Str) (fuel : Nat) :
    Printing (packageHost matchF fmtV fuel) where
  num t h := (numberText_tok h).2.2 _
  col := rfl
  text := rfl

/-- A function of values that does not look at heap references. -/
def Blind {β : Type} (f : V F64 → β) : Prop :=
  ∀ (H : Host F64 Unit) (Z : Cfg Unit) (W : Corr) (a b : V F64), VR H Z W a b → f a = f b

theorem package_r {matchF : V F64 → V F64 → Bool} {fmtV : V F64 → Str} (fuel : Nat)
    (hm : Blind matchF) (hm' : ∀ a, Blind (matchF a)) (hf : Blind fmtV) (tbl : Nat → List Str) :
    HostR (packageHost matchF fmtV fuel) (exact tbl) := by
  refine libHost_r plain_empty ⟨?_, ?_, ?_, ?_, fun _ _ => rfl⟩ (fun {W a a' b b'} ha hb => ?_) (fun {W a a'} ha => hf _ _ W _ _ ha) ?_ (fun _ _ _ => rfl)
  · intro rec hr n f h
    simp [OD.get] at h
  · intro rec hr n f h
    simp [OD.get] at h
  · intros
    exact .none
  · intros
    exact sim_pure rfl
  · rw [hm _ _ W _ _ ha, hm' _ _ _ W _ _ hb]
  · intro t v h
    unfold numberV at h
    split at h
    · cases h
      exact flat_of_data trivial
    · cases hp : parseF64 t with
      | none => rw [hp] at h; simp at h
      | some f =>
        rw [hp] at h
        simp only [Option.map_some, Option.some.injEq] at h
        subst h
        exact flat_of_data trivial

/-- **C49** for the functions and plugins of the package, whatever the application's way of
printing values and of matching regular expressions, if they do not depend on addresses. -/
theorem C49_package_partial {matchF : V F64 → V F64 → Bool} {fmtV : V F64 → Str} (limit : Nat)
    (hm : Blind matchF) (hm' : ∀ a, Blind (matchF a)) (hf : Blind fmtV) {ts ts' : List CStmt}
    (ht : ∀ t ∈ ts, (∃ text, parse limitVal text = some t) ∧ kStmt numberText t)
    (ht' : ts.map (fun t => parse limitVal (formatStmt numberText t)) = ts'.map some)
    {st : Vql.St F64 Unit} {s : Nat} (hst : Fresh st s) (fuel node : Nat) (rows : List (List (V F64)))
    (hd : ∀ l ∈ rows, DataL l) :
    (∃ s1, runStmts (packageHost matchF fmtV limit) fuel (lowStmts ts node) s st = some (rows, s1)) ↔
      ∃ s1, runStmts (packageHost matchF fmtV limit) fuel (lowStmts ts' node) s st = some (rows, s1) :=
  C49_same_rows_partial (package_printing _ _ _) (package_r limit hm hm' hf) ht ht' hst fuel node rows hd

/-- The hypotheses are satisfied by a program with a function with a default, an aggregate, a nested
query and numbers in all bases; it finishes, and so does its printed form. -/
def sampleTexts : List String :=
  ["LET X(a=0x10) = SELECT a + 1 AS b, count() AS n FROM scope()",
   "SELECT b, n, 1.50 AS f, { SELECT 017 AS z FROM scope() } AS q FROM X(a=0x1F) WHERE b > 017 LIMIT 0x2"]

def sampleTrees : List CStmt := sampleTexts.filterMap fun t => parse limitVal (bs t)

example : (sampleTrees.map fun t => decide (kStmt numberText t)) = [true, true] := by decide +kernel

/-- Does the program finish with such rows? -/
def finishes (ts : List CStmt) (p : List (List (V F64)) → Bool) : Bool :=
  match runStmts (packageHost (fun _ _ => false) (fun _ => []) 10) 80 (lowStmts ts 0) 0 (St.init []) with
  | some (rs, _) => p rs
  | none => false

example : finishes sampleTrees (fun rs => match rs with
  | [[], [.dict [(_, .int b), (_, .int n), (_, .float _), (_, .int z)]]] => decide (b = 32 ∧ n = 1 ∧ z = 15)
  | _ => false) = true := by decide +kernel

example : Fresh (St.init [(bs "x", .int 1)]) 0 := ⟨by decide, rfl, rfl, ⟨⟨trivial, trivial⟩, trivial⟩, rfl⟩
example : Blind (fun _ : V F64 => bs "?") ∧ ∀ a : V F64, Blind (fun b : V F64 => false) :=
  ⟨fun _ _ _ _ _ _ => rfl, fun _ _ _ _ _ _ _ => rfl⟩

end Vfilter.Fmt
