import Verif.EvalExpr
import Verif.Builtins
import Verif.EvalDemo
import Verif.Props.Logic
import Verif.Props.TextLit
import Verif.Props.Collections
import Verif.Props.Arith
/-!
# C02, C09-C13, C45 in the evaluator: literals, operators, subscripts

The theorems of `Props.Logic`, `Props.Collections` and `Props.TextLit` are about the
operators by themselves.  Here the same facts are stated for expressions of the syntax
tree evaluated by `body`: operands may be any expression, with any effect.
-/
set_option linter.all false

namespace Vfilter.Vql

section
variable {F S : Type} [FloatOps F] {H : Host F S}

/-! ## C45: literals -/

/-- A literal token evaluates to what it decodes to. -/
theorem runs_literal {t : Str} {v : Str} (h : unquote t = some v) {s : Nat} {st st' : St F S} {a : V F} :
    Runs H (call (.and (.val (.str t)) s)) st a st' ↔ a = .str v ∧ st' = st := by
  rw [runs_and_val, runs_call]
  simp only [body, h, Option.getD_some]
  rw [runs_pure]

/-- A string literal evaluates to the text between its quotes and changes nothing: for
every byte string `v`, the double quoted literal with the quotes and backslashes of `v`
escaped, the single quoted one, and the triple quoted one. -/
theorem C45_evaluates (v : Str) (s : Nat) (st st' : St F S) (a : V F) :
    (Runs H (call (.and (.val (.str (chDQ :: escapeFor chDQ v ++ [chDQ]))) s)) st a st' ↔
      a = .str v ∧ st' = st) ∧
    (Runs H (call (.and (.val (.str (chSQ :: escapeFor chSQ v ++ [chSQ]))) s)) st a st' ↔
      a = .str v ∧ st' = st) ∧
    (Runs H (call (.and (.val (.str (q3 ++ v ++ q3))) s)) st a st' ↔ a = .str v ∧ st' = st) :=
  ⟨runs_literal (C45_double v []).2, runs_literal (C45_single v [] (Or.inr (by simp))).2,
    runs_literal (unquote_triple v)⟩

/-- Every literal the lexer can produce evaluates to a string, and to the same string
wherever and whenever it is evaluated. -/
theorem C45_evaluates_total {src tok rest : Str} (h : lexLiteral src = some (tok, rest)) :
    ∃ v, ∀ (s : Nat) (st st' : St F S) (a : V F),
      Runs H (call (.and (.val (.str tok)) s)) st a st' ↔ a = .str v ∧ st' = st := by
  obtain ⟨v, hv⟩ := C45_total h
  exact ⟨v, fun s st st' a => runs_literal hv⟩

/-- TRUE and FALSE, in any letter case, and NULL. -/
theorem C45_constants (s : Nat) (st st' : St F S) (a : V F) :
    (∀ t, t.map upperByte = bs "TRUE" →
      (Runs H (call (.and (.val (.bool t)) s)) st a st' ↔ a = .bool true ∧ st' = st)) ∧
    (∀ t, t.map upperByte = bs "FALSE" →
      (Runs H (call (.and (.val (.bool t)) s)) st a st' ↔ a = .bool false ∧ st' = st)) ∧
    (Runs H (call (.and (.val .null) s)) st a st' ↔ a = .null ∧ st' = st) := by
  have hne : bs "FALSE" ≠ bs "TRUE" := by decide
  refine ⟨?_, ?_, ?_⟩
  · intro t ht
    rw [runs_and_val, runs_call]
    simp only [body, ht, decide_true]
    rw [runs_pure]
  · intro t ht
    rw [runs_and_val, runs_call]
    simp only [body, ht]
    rw [decide_eq_false hne, runs_pure]
  · rw [runs_and_val, runs_call]
    simp only [body]
    rw [runs_pure]

/-! ## C10: chains -/

/-- The operands of a chain are evaluated one after the other, and their truth taken,
until one has the truth value `stop`.  The list holds the values seen with their truth. -/
inductive Visits {α : Type} (H : Host F S) (s : Nat) (ev : α → Prog F S (V F)) (stop : Bool) :
    List α → St F S → List (V F × Bool) → St F S → Prop where
  | done (st : St F S) : Visits H s ev stop [] st [] st
  | hit {a : α} {r : List α} {st s1 s2 : St F S} {x : V F} :
      Runs H (ev a) st x s1 → Runs H (H.truth x s) s1 stop s2 →
      Visits H s ev stop (a :: r) st [(x, stop)] s2
  | next {a : α} {r : List α} {st s1 s2 s3 : St F S} {x : V F} {l : List (V F × Bool)} :
      Runs H (ev a) st x s1 → Runs H (H.truth x s) s1 (!stop) s2 →
      Visits H s ev stop r s2 l s3 →
      Visits H s ev stop (a :: r) st ((x, !stop) :: l) s3

def AndT.op : AndT → Str | .mk o _ => o
def AndT.term : AndT → OrE | .mk _ t => t
def OrT.op : OrT → Str | .mk o _ => o
def OrT.term : OrT → Cond | .mk _ t => t

abbrev AndVisits (H : Host F S) (s : Nat) := Visits H s (fun e : OrE => call (Call.or e s)) false
abbrev OrVisits (H : Host F S) (s : Nat) := Visits H s (fun e : Cond => call (Call.cond e s)) true

theorem runs_andLoop {s : Nat} (r : List AndT) (last v : V F) (st st' : St F S) :
    Runs H (andLoopP H s last r) st v st' ↔
      ∃ l, AndVisits H s (r.map AndT.term) st l st' ∧
        v = if l.any (fun p => !p.2) then .bool false
            else match r.getLast? with
              | none => last
              | some t => if t.op = bs "&&" then (l.getLast?.map (·.1)).getD .null else .bool true := by
  induction r generalizing last st with
  | nil =>
    simp only [andLoopP, runs_pure, List.map_nil, List.getLast?_nil]
    constructor
    · rintro ⟨rfl, rfl⟩
      exact ⟨[], .done _, by simp⟩
    · rintro ⟨l, hl, rfl⟩
      cases hl
      simp
  | cons a r ih =>
    obtain ⟨op, t⟩ := a
    simp only [andLoopP, runs_bind]
    constructor
    · rintro ⟨x, s1, h1, b, s2, h2, h3⟩
      cases b with
      | false =>
        simp only [if_true] at h3
        obtain ⟨rfl, rfl⟩ := runs_pure.1 h3
        exact ⟨[(x, false)], .hit (ev := fun e : OrE => call (Call.or e s)) h1 h2, by simp⟩
      | true =>
        simp only [Bool.true_eq_false, if_false] at h3
        obtain ⟨l, hl, hv⟩ := (ih _ _).1 h3
        refine ⟨(x, true) :: l, .next (ev := fun e : OrE => call (Call.or e s)) h1 h2 hl, ?_⟩
        rw [hv]
        simp only [List.any_cons, Bool.not_true, Bool.false_or]
        cases r with
        | nil =>
          cases hl
          simp [AndT.op]
          rfl
        | cons b r =>
          simp only [List.getLast?_cons_cons]
          split
          · rfl
          · cases hl with
            | hit _ _ => simp at *
            | next _ _ hr => simp only [List.getLast?_cons_cons, List.getLast?_cons, Option.getD_some]
    · rintro ⟨l, hl, hv⟩
      cases hl with
      | hit h1 h2 =>
        refine ⟨_, _, h1, false, _, h2, ?_⟩
        simp only [if_true]
        rw [hv]
        exact runs_pure.2 ⟨by simp, rfl⟩
      | @next _ _ _ s1 s2 s3 x l h1 h2 hr =>
        refine ⟨x, s1, h1, true, s2, h2, ?_⟩
        simp only [Bool.true_eq_false, if_false]
        refine (ih _ _).2 ⟨l, hr, ?_⟩
        rw [hv]
        simp only [List.any_cons, Bool.not_false, Bool.not_true, Bool.false_or]
        cases r with
        | nil =>
          cases hr
          simp [AndT.op]
          rfl
        | cons b r =>
          simp only [List.getLast?_cons_cons]
          split
          · rfl
          · cases hr with
            | hit _ _ => simp at *
            | next _ _ hr => simp only [List.getLast?_cons_cons, List.getLast?_cons, Option.getD_some]

/-- An AND chain evaluates its operands from left to right and stops at the first false
one.  It is FALSE if an operand is false.  Otherwise it is TRUE, or the value of the last
operand if that was joined with `&&`. -/
theorem C10_and_evaluates {l : OrE} {r : List AndT} {t : AndT} (hr : r.getLast? = some t)
    (s : Nat) (st st' : St F S) (v : V F) :
    Runs H (call (.and (.mk l r) s)) st v st' ↔
      ∃ vs, AndVisits H s (l :: r.map AndT.term) st vs st' ∧
        v = if ∃ p ∈ vs, p.2 = false then .bool false
            else if t.op = bs "&&" then (vs.getLast?.map (·.1)).getD .null else .bool true := by
  have hc : ∀ vs : List (V F × Bool), (vs.any (fun p => !p.2)) = true ↔ ∃ p ∈ vs, p.2 = false := by
    intro vs; simp [List.any_eq_true]
  obtain ⟨b, r', rfl⟩ : ∃ b r', r = b :: r' := by
    cases r with
    | nil => cases hr
    | cons b r => exact ⟨b, r, rfl⟩
  rw [runs_call]
  simp only [body, runs_bind]
  constructor
  · rintro ⟨x, s1, h1, q, s2, h2, h3⟩
    cases q with
    | false =>
      simp only [if_true] at h3
      obtain ⟨rfl, rfl⟩ := runs_pure.1 h3
      exact ⟨[(x, false)], .hit (ev := fun e : OrE => call (Call.or e s)) h1 h2, by simp⟩
    | true =>
      simp only [Bool.true_eq_false, if_false] at h3
      obtain ⟨vs, hl, hv⟩ := (runs_andLoop _ _ _ _ _).1 h3
      refine ⟨(x, true) :: vs, .next (ev := fun e : OrE => call (Call.or e s)) h1 h2 hl, ?_⟩
      rw [hv, hr]
      simp only [← hc, List.any_cons, Bool.not_true, Bool.false_or]
      split
      · rfl
      · cases hl with
        | hit _ _ => simp at *
        | next _ _ hr => simp only [List.getLast?_cons_cons]
  · rintro ⟨vs, hl, hv⟩
    cases hl with
    | hit h1 h2 =>
      refine ⟨_, _, h1, false, _, h2, ?_⟩
      simp only [if_true]
      rw [hv]
      exact runs_pure.2 ⟨by simp, rfl⟩
    | @next _ _ _ s1 s2 s3 x l h1 h2 hl =>
      refine ⟨x, s1, h1, true, s2, h2, ?_⟩
      simp only [Bool.true_eq_false, if_false]
      refine (runs_andLoop _ _ _ _ _).2 ⟨l, hl, ?_⟩
      rw [hv, hr]
      simp only [← hc, List.any_cons, Bool.not_false, Bool.not_true, Bool.false_or]
      split
      · rfl
      · cases hl with
        | hit _ _ => simp at *
        | next _ _ hr => simp only [List.getLast?_cons_cons]

theorem runs_orLoop {s : Nat} (r : List OrT) (last v : V F) (st st' : St F S) :
    Runs H (orLoopP H s last r) st v st' ↔
      ∃ l, OrVisits H s (r.map OrT.term) st l st' ∧
        v = if l.any (fun p => p.2) then
              if (r[l.length - 1]?).map OrT.op = some (bs "||") then (l.getLast?.map (·.1)).getD .null
              else .bool true
            else (l.getLast?.map (·.1)).getD last := by
  induction r generalizing last st with
  | nil =>
    simp only [orLoopP, runs_pure, List.map_nil]
    constructor
    · rintro ⟨rfl, rfl⟩
      exact ⟨[], .done _, by simp⟩
    · rintro ⟨l, hl, rfl⟩
      cases hl
      simp
  | cons a r ih =>
    obtain ⟨op, t⟩ := a
    simp only [orLoopP, runs_bind]
    constructor
    · rintro ⟨x, s1, h1, b, s2, h2, h3⟩
      cases b with
      | true =>
        simp only [if_true] at h3
        obtain ⟨rfl, rfl⟩ := runs_pure.1 h3
        exact ⟨[(x, true)], .hit (ev := fun e : Cond => call (Call.cond e s)) h1 h2, by simp [OrT.op]⟩
      | false =>
        simp only [Bool.false_eq_true, if_false] at h3
        obtain ⟨l, hl, hv⟩ := (ih _ _).1 h3
        refine ⟨(x, false) :: l, .next (ev := fun e : Cond => call (Call.cond e s)) h1 h2 hl, ?_⟩
        rw [hv]
        simp only [List.any_cons, Bool.false_or]
        cases l with
        | nil => simp
        | cons b l => simp [List.getLast?_cons_cons, List.getLast?_cons]
    · rintro ⟨l, hl, hv⟩
      cases hl with
      | hit h1 h2 =>
        refine ⟨_, _, h1, true, _, h2, ?_⟩
        simp only [if_true]
        rw [hv]
        exact runs_pure.2 ⟨by simp [OrT.op], rfl⟩
      | @next _ _ _ s1 s2 s3 x l h1 h2 hr =>
        refine ⟨x, s1, h1, false, s2, h2, ?_⟩
        simp only [Bool.false_eq_true, if_false]
        refine (ih _ _).2 ⟨l, hr, ?_⟩
        rw [hv]
        simp only [List.any_cons, Bool.not_true, Bool.false_or]
        cases l with
        | nil => simp
        | cons b l => simp [List.getLast?_cons_cons, List.getLast?_cons]

/-- An OR chain evaluates its operands from left to right and stops at the first true one.
If none is true it is the value of the last operand.  If the first one is true it is the
value of that; if a later one is, it is TRUE, or the value of that operand if it was
joined with `||`. -/
theorem C10_or_evaluates {l : Cond} {r : List OrT} (hr : r ≠ [])
    (s : Nat) (st st' : St F S) (v : V F) :
    Runs H (call (.or (.mk l r) s)) st v st' ↔
      ∃ vs last, OrVisits H s (l :: r.map OrT.term) st vs st' ∧ vs.getLast?.map (·.1) = some last ∧
        v = if (∃ p ∈ vs, p.2 = true) ∧ 1 < vs.length ∧
              (r[vs.length - 2]?).map OrT.op ≠ some (bs "||") then .bool true
            else last := by
  have hc : ∀ vs : List (V F × Bool), (vs.any (fun p => p.2)) = true ↔ ∃ p ∈ vs, p.2 = true := by
    intro vs; simp [List.any_eq_true]
  obtain ⟨b, r', rfl⟩ : ∃ b r', r = b :: r' := by
    cases r with
    | nil => exact absurd rfl hr
    | cons b r => exact ⟨b, r, rfl⟩
  rw [runs_call]
  simp only [body, runs_bind]
  constructor
  · rintro ⟨x, s1, h1, q, s2, h2, h3⟩
    cases q with
    | true =>
      simp only [if_true] at h3
      obtain ⟨rfl, rfl⟩ := runs_pure.1 h3
      exact ⟨[(v, true)], v, .hit (ev := fun e : Cond => call (Call.cond e s)) h1 h2, rfl, by simp⟩
    | false =>
      simp only [Bool.false_eq_true, if_false] at h3
      obtain ⟨vs, hl, hv⟩ := (runs_orLoop _ _ _ _ _).1 h3
      have hne : vs ≠ [] := by rintro rfl; cases hl
      obtain ⟨w, ws, rfl⟩ : ∃ w ws, vs = w :: ws := by
        cases vs with
        | nil => exact absurd rfl hne
        | cons w ws => exact ⟨w, ws, rfl⟩
      refine ⟨(x, false) :: w :: ws, ((w :: ws).getLast (by simp)).1,
        .next (ev := fun e : Cond => call (Call.cond e s)) h1 h2 hl, ?_, ?_⟩
      · simp [List.getLast?_eq_getLast]
      · rw [hv]
        simp only [← hc, List.any_cons, Bool.false_or, List.length_cons]
        have : ws.length + 1 + 1 - 2 = ws.length + 1 - 1 := by omega
        rw [this]
        by_cases ha : (w.2 || ws.any fun p => p.2) = true
        · simp only [ha, if_true, true_and]
          by_cases hb : ((b :: r')[ws.length + 1 - 1]?).map OrT.op = some (bs "||")
          · rw [if_pos hb, if_neg (fun h => h.2 hb)]
            simp [List.getLast?_eq_getLast]
          · simp only [hb, if_false, ne_eq, not_false_eq_true, and_true]
            rw [if_pos (by omega)]
        · simp [ha, List.getLast?_eq_getLast]
  · rintro ⟨vs, last, hl, hlast, hv⟩
    cases hl with
    | hit h1 h2 =>
      simp at hlast
      refine ⟨_, _, h1, true, _, h2, ?_⟩
      simp only [if_true]
      rw [hv]
      exact runs_pure.2 ⟨by simp [hlast], rfl⟩
    | @next _ _ _ s1 s2 s3 x l h1 h2 hl =>
      refine ⟨x, s1, h1, false, s2, h2, ?_⟩
      simp only [Bool.false_eq_true, if_false]
      refine (runs_orLoop _ _ _ _ _).2 ⟨l, hl, ?_⟩
      have hne : l ≠ [] := by rintro rfl; cases hl
      obtain ⟨w, ws, rfl⟩ : ∃ w ws, l = w :: ws := by
        cases l with
        | nil => exact absurd rfl hne
        | cons w ws => exact ⟨w, ws, rfl⟩
      have hlast : ((w :: ws).getLast (by simp)).1 = last := by
        simpa [List.getLast?_eq_getLast] using hlast
      rw [hv]
      simp only [← hc, List.any_cons, Bool.not_true, Bool.false_or, List.length_cons]
      have : ws.length + 1 + 1 - 2 = ws.length + 1 - 1 := by omega
      rw [this]
      by_cases ha : (w.2 || ws.any fun p => p.2) = true
      · simp only [ha, if_true, true_and]
        by_cases hb : ((b :: r')[ws.length + 1 - 1]?).map OrT.op = some (bs "||")
        · rw [if_pos hb, if_neg (fun h => h.2 hb)]
          simp [List.getLast?_eq_getLast, hlast]
        · simp only [hb, if_false, ne_eq, not_false_eq_true, and_true]
          rw [if_pos (by omega)]
      · simp [ha, List.getLast?_eq_getLast, hlast]


/-! ## C09: comparisons -/

/-- The value is not a lazy expression. -/
def Ready (v : V F) : Prop := ∀ c, v ≠ .obj (.lazy c)

theorem runs_reduce {v a : V F} (h : Ready v) {st st' : St F S} :
    Runs H (reduceP v) st a st' ↔ a = v ∧ st' = st := by
  unfold reduceP
  split
  · rename_i c; exact absurd rfl (h c)
  · exact runs_pure

/-- Runs of a program that can only end in one way. -/
theorem runs_only {α : Type} {p : Prog F S α} {st st1 st' : St F S} {a b : α} (h : Runs H p st a st1) :
    Runs H p st b st' ↔ b = a ∧ st' = st1 := by
  constructor
  · intro h'
    obtain ⟨rfl, rfl⟩ := h.det h'
    exact ⟨rfl, rfl⟩
  · rintro ⟨rfl, rfl⟩; exact h

section
variable (W : World F Obj) (matchF : V F → V F → Bool) (fmtV : V F → Str) (colName : Col → Str)
  (num : Str → Option (V F)) (sources : OD (List (V F)))

theorem runs_stdRel {op : Rel} {a b : V F} {s : Nat} (ha : Ready a) (hb : Ready b) (st : St F S) :
    Runs H (stdRel W matchF op a b s) st (match op with
    | .mem => memV W a b
    | .lt => ltV W a b
    | .eq => eqV W a b
    | .gt => gtV W a b
    | .match_ => matchF a b) st := by
  unfold stdRel
  exact runs_bind.2 ⟨_, _, (runs_reduce ha).2 ⟨rfl, rfl⟩,
    runs_bind.2 ⟨_, _, (runs_reduce hb).2 ⟨rfl, rfl⟩, runs_pure.2 ⟨rfl, rfl⟩⟩⟩

/-- `a op b` evaluates `a`, then `b`, then compares, and is the boolean the operator
stands for.  Missing from the full claim: `<>` (`C09_refuted`), operands that are lazy
expressions. -/
theorem C09_evaluates_partial {l r : AddE} {op : Str} {s : Nat} {st s1 s2 : St F S} {a b : V F} {x : Bool}
    (hop : AcceptedOp op) (h1 : op ≠ bs "<>")
    (hl : Runs (stdHost W matchF fmtV colName num sources) (call (.add l s)) st a s1)
    (hr : Runs (stdHost W matchF fmtV colName num sources) (call (.add r s)) s1 b s2)
    (ha : Ready a) (hb : Ready b)
    (hx : opMeaning (eqV W a b) (ltV W a b) (gtV W a b) (memV W a b) (matchF b a) op = some x)
    (v : V F) (st' : St F S) :
    Runs (stdHost W matchF fmtV colName num sources)
      (call (.cond (.cmp l (some (.mk (opText op) r))) s)) st v st' ↔ v = .bool x ∧ st' = s2 := by
  apply runs_only
  rw [runs_call]
  simp only [body]
  refine runs_bind.2 ⟨_, _, hl, runs_bind.2 ⟨_, _, hr, runs_bind.2 ⟨x, s2, ?_, runs_pure.2 ⟨rfl, rfl⟩⟩⟩⟩
  have R := fun (op : Rel) => runs_stdRel (H := stdHost W matchF fmtV colName num sources)
    W matchF (op := op) (s := s) ha hb s2
  have R' := runs_stdRel (H := stdHost W matchF fmtV colName num sources)
    W matchF (op := .match_) (s := s) hb ha s2
  simp only [AcceptedOp, List.mem_cons, List.not_mem_nil, or_false] at hop
  have he : ∀ y, some y = some x → y = x := fun y h => by cases h; rfl
  rcases hop with rfl | rfl | rfl | rfl | rfl | rfl | rfl | rfl | rfl | rfl | rfl | rfl
  · exact absurd rfl h1
  · have := he (ltV W a b || eqV W a b) hx
    subst this
    show Runs _ (stdRel W matchF .lt a b s >>= fun r => if r = true then pure true else stdRel W matchF .eq a b s) _ _ _
    refine runs_bind.2 ⟨_, _, R .lt, ?_⟩
    cases hlt : ltV W a b
    · simpa [hlt] using R .eq
    · simp only [hlt, if_true, Bool.true_or]; exact runs_pure.2 ⟨rfl, rfl⟩
  · have := he (gtV W a b || eqV W a b) hx
    subst this
    show Runs _ (stdRel W matchF .gt a b s >>= fun r => if r = true then pure true else stdRel W matchF .eq a b s) _ _ _
    refine runs_bind.2 ⟨_, _, R .gt, ?_⟩
    cases hlt : gtV W a b
    · simpa [hlt] using R .eq
    · simp only [hlt, if_true, Bool.true_or]; exact runs_pure.2 ⟨rfl, rfl⟩
  · cases he _ hx; exact R .eq
  · cases he _ hx; exact R .lt
  · cases he _ hx; exact R .gt
  · cases he _ hx
    show Runs _ (stdRel W matchF .eq a b s >>= fun r => pure (!r)) _ _ _
    exact runs_bind.2 ⟨_, _, R .eq, runs_pure.2 ⟨rfl, rfl⟩⟩
  · cases he _ hx; exact R'
  · cases he _ hx; exact R .mem
  · cases he _ hx; exact R .mem
  · cases he _ hx; exact R .mem
  · cases he _ hx; exact R .mem

/-- `NOT c` is the complement of the truth value of `c`, on any host. -/
theorem C09_not_evaluates {c : Cond} {s : Nat} {st st' : St F S} {v : V F} :
    Runs H (call (.cond (.not c) s)) st v st' ↔
      ∃ a s1 b, Runs H (call (.cond c s)) st a s1 ∧ Runs H (H.truth a s) s1 b st' ∧ v = .bool (!b) := by
  rw [runs_call]
  simp only [body, runs_bind, runs_pure]
  constructor
  · rintro ⟨a, s1, h1, b, s2, h2, rfl, rfl⟩
    exact ⟨a, s1, b, h1, h2, rfl⟩
  · rintro ⟨a, s1, b, h1, h2, rfl⟩
    exact ⟨a, s1, h1, b, _, h2, rfl, rfl⟩

/-! ## C04, C62: one operator between two values -/

/-- `a + b` and `a - b` of values that are not lazy. -/
theorem runs_add_two {l r : MulE} {s : Nat} {st s1 s2 : St F S} {a b : V F}
    (hl : Runs (stdHost W matchF fmtV colName num sources) (call (.mul l s)) st a s1)
    (hr : Runs (stdHost W matchF fmtV colName num sources) (call (.mul r s)) s1 b s2)
    (ha : Ready a) (hb : Ready b) :
    Runs (stdHost W matchF fmtV colName num sources) (call (.add (.mk l [.mk (bs "+") r]) s)) st
      (addV W a b) s2 ∧
    Runs (stdHost W matchF fmtV colName num sources) (call (.add (.mk l [.mk (bs "-") r]) s)) st
      (subV W a b) s2 := by
  have hne : ¬ bs "-" = bs "+" := by decide
  constructor
  · rw [runs_call]
    simp only [body]
    refine runs_bind.2 ⟨_, _, hl, ?_⟩
    simp only [foldP, addStepP, if_true]
    refine runs_bind.2 ⟨_, _, runs_bind.2 ⟨_, _, hr, ?_⟩, runs_pure.2 ⟨rfl, rfl⟩⟩
    exact runs_bind.2 ⟨_, _, (runs_reduce ha).2 ⟨rfl, rfl⟩,
      runs_bind.2 ⟨_, _, (runs_reduce hb).2 ⟨rfl, rfl⟩, runs_pure.2 ⟨rfl, rfl⟩⟩⟩
  · rw [runs_call]
    simp only [body]
    refine runs_bind.2 ⟨_, _, hl, ?_⟩
    simp only [foldP, addStepP, if_true, hne, if_false]
    refine runs_bind.2 ⟨_, _, runs_bind.2 ⟨_, _, hr, ?_⟩, runs_pure.2 ⟨rfl, rfl⟩⟩
    exact runs_bind.2 ⟨_, _, (runs_reduce ha).2 ⟨rfl, rfl⟩,
      runs_bind.2 ⟨_, _, (runs_reduce hb).2 ⟨rfl, rfl⟩, runs_pure.2 ⟨rfl, rfl⟩⟩⟩

/-- `a * b` and `a / b` of values that are not lazy; the product must not panic. -/
theorem runs_mul_two {l : Member} {r : Value} {s : Nat} {st s1 s2 : St F S} {a b c : V F}
    (hl : Runs (stdHost W matchF fmtV colName num sources) (call (.member l s)) st a s1)
    (hr : Runs (stdHost W matchF fmtV colName num sources) (call (.value r s)) s1 b s2)
    (ha : Ready a) (hb : Ready b) :
    (mulV W a b = .ok c →
      Runs (stdHost W matchF fmtV colName num sources) (call (.mul (.mk l [.mk (bs "*") r]) s)) st c s2) ∧
    Runs (stdHost W matchF fmtV colName num sources) (call (.mul (.mk l [.mk (bs "/") r]) s)) st
      (divV W (.val a) (.val b)) s2 := by
  have hne : ¬ bs "/" = bs "*" := by decide
  constructor
  · intro hc
    rw [runs_call]
    simp only [body]
    refine runs_bind.2 ⟨_, _, hl, ?_⟩
    simp only [foldP, mulStepP, if_true]
    refine runs_bind.2 ⟨_, _, runs_bind.2 ⟨_, _, hr, ?_⟩, runs_pure.2 ⟨rfl, rfl⟩⟩
    refine runs_bind.2 ⟨_, _, (runs_reduce ha).2 ⟨rfl, rfl⟩,
      runs_bind.2 ⟨_, _, (runs_reduce hb).2 ⟨rfl, rfl⟩, ?_⟩⟩
    rw [hc]
    exact runs_pure.2 ⟨rfl, rfl⟩
  · rw [runs_call]
    simp only [body]
    refine runs_bind.2 ⟨_, _, hl, ?_⟩
    simp only [foldP, mulStepP, if_true, hne, if_false]
    refine runs_bind.2 ⟨_, _, runs_bind.2 ⟨_, _, hr, ?_⟩, runs_pure.2 ⟨rfl, rfl⟩⟩
    exact runs_bind.2 ⟨_, _, (runs_reduce ha).2 ⟨rfl, rfl⟩, runs_pure.2 ⟨rfl, rfl⟩⟩

/-- `a + b` of expressions that evaluate to strings is the concatenation, or NULL beyond
the memory limit. -/
theorem C04_evaluates {l r : MulE} {s : Nat} {st s1 s2 : St F S} {a b : Str}
    (hl : Runs (stdHost W matchF fmtV colName num sources) (call (.mul l s)) st (.str a) s1)
    (hr : Runs (stdHost W matchF fmtV colName num sources) (call (.mul r s)) s1 (.str b) s2)
    (v : V F) (st' : St F S) :
    Runs (stdHost W matchF fmtV colName num sources) (call (.add (.mk l [.mk (bs "+") r]) s)) st v st' ↔
      v = (if a.length + b.length ≤ 100000000 then .str (a ++ b) else .null) ∧ st' = s2 := by
  rw [← C04_string_concat W]
  exact runs_only (runs_add_two W matchF fmtV colName num sources hl hr (by intro c h; cases h)
    (by intro c h; cases h)).1

/-! ## C02: sums and products of integers -/

/-- The terms after the first of a sum, evaluated from left to right, are integers whose
signed sum is the given number. -/
inductive IntTerms (H : Host F S) (s : Nat) : List AddT → St F S → Int → St F S → Prop where
  | nil (st : St F S) : IntTerms H s [] st 0 st
  | plus {t : MulE} {r : List AddT} {st s1 s2 : St F S} {y : I64} {k : Int} :
      Runs H (call (.mul t s)) st (.int y) s1 → IntTerms H s r s1 k s2 →
      IntTerms H s (.mk (bs "+") t :: r) st (y.toInt + k) s2
  | minus {t : MulE} {r : List AddT} {st s1 s2 : St F S} {y : I64} {k : Int} :
      Runs H (call (.mul t s)) st (.int y) s1 → IntTerms H s r s1 k s2 →
      IntTerms H s (.mk (bs "-") t :: r) st (-y.toInt + k) s2

/-- The factors after the first of a product. -/
inductive IntFactors (H : Host F S) (s : Nat) : List MulT → St F S → Int → St F S → Prop where
  | nil (st : St F S) : IntFactors H s [] st 1 st
  | times {t : Value} {r : List MulT} {st s1 s2 : St F S} {y : I64} {k : Int} :
      Runs H (call (.value t s)) st (.int y) s1 → IntFactors H s r s1 k s2 →
      IntFactors H s (.mk (bs "*") t :: r) st (y.toInt * k) s2

theorem int_ready (x : I64) : Ready (.int x : V F) := by intro c h; cases h

theorem exactMod_ofInt (k : Int) : ExactMod64 (BitVec.ofInt 64 k) k :=
  exactMod64_of_bmod (by rw [BitVec.toInt_ofInt])

theorem runs_stdArith_int (op : Arith) (hop : op ≠ .div) (x y : I64) (s : Nat) (st : St F S) :
    Runs H (stdArith W op (.int x) (.int y) s) st (.int (match op with
      | .add => x + y
      | .sub => x - y
      | _ => x * y)) st := by
  have hx := (runs_reduce (H := H) (int_ready (F := F) x) (st := st)).2 ⟨rfl, rfl⟩
  have hy := (runs_reduce (H := H) (int_ready (F := F) y) (st := st)).2 ⟨rfl, rfl⟩
  unfold stdArith
  refine runs_bind.2 ⟨_, _, hx, ?_⟩
  cases op with
  | add => exact runs_bind.2 ⟨_, _, hy, runs_pure.2 ⟨rfl, rfl⟩⟩
  | sub => exact runs_bind.2 ⟨_, _, hy, runs_pure.2 ⟨rfl, rfl⟩⟩
  | mul => exact runs_bind.2 ⟨_, _, hy, runs_pure.2 ⟨rfl, rfl⟩⟩
  | div => exact absurd rfl hop

/-- A sum `x0 ± x1 ± ...` whose operands evaluate to integers is the integer congruent to
their signed sum modulo 2^64, and equal to it when it fits, however many operands there
are and whatever the operands do. -/
theorem C02_evaluates_sum {l : MulE} {r : List AddT} {s : Nat} {st s1 s2 : St F S} {y : I64} {k : Int}
    (hl : Runs (stdHost W matchF fmtV colName num sources) (call (.mul l s)) st (.int y) s1)
    (hr : IntTerms (stdHost W matchF fmtV colName num sources) s r s1 k s2) :
    ∃ z, ExactMod64 z (y.toInt + k) ∧ ∀ (v : V F) (st' : St F S),
      Runs (stdHost W matchF fmtV colName num sources) (call (.add (.mk l r) s)) st v st' ↔
        v = .int z ∧ st' = s2 := by
  refine ⟨_, exactMod_ofInt _, fun v st' => runs_only ?_⟩
  rw [runs_call]
  simp only [body]
  refine runs_bind.2 ⟨_, _, hl, ?_⟩
  clear hl
  have : y = BitVec.ofInt 64 y.toInt := BitVec.ofInt_toInt.symm
  rw [this]
  have e0 : (BitVec.ofInt 64 y.toInt).toInt + k = y.toInt + k := by rw [BitVec.ofInt_toInt]
  rw [e0]
  generalize y.toInt = a
  clear this e0 y
  induction hr generalizing a with
  | nil st => simp only [foldP, Int.add_zero]; exact runs_pure.2 ⟨rfl, rfl⟩
  | @plus t r st s1 s2 y k h1 _ ih =>
    simp only [foldP]
    refine runs_bind.2 ⟨.int (BitVec.ofInt 64 (a + y.toInt)), s1, ?_, ?_⟩
    · simp only [addStepP, if_true]
      refine runs_bind.2 ⟨_, _, h1, ?_⟩
      have := runs_stdArith_int (H := stdHost W matchF fmtV colName num sources) W .add (by simp)
        (BitVec.ofInt 64 a) y s s1
      rw [BitVec.ofInt_add, BitVec.ofInt_toInt]
      exact this
    · have := ih (a + y.toInt)
      rwa [Int.add_assoc] at this
  | @minus t r st s1 s2 y k h1 _ ih =>
    have hne : ¬ bs "-" = bs "+" := by decide
    simp only [foldP]
    refine runs_bind.2 ⟨.int (BitVec.ofInt 64 (a + -y.toInt)), s1, ?_, ?_⟩
    · simp only [addStepP, if_true, hne, if_false]
      refine runs_bind.2 ⟨_, _, h1, ?_⟩
      have := runs_stdArith_int (H := stdHost W matchF fmtV colName num sources) W .sub (by simp)
        (BitVec.ofInt 64 a) y s s1
      rw [BitVec.ofInt_add, BitVec.ofInt_neg, BitVec.ofInt_toInt, ← BitVec.sub_eq_add_neg]
      exact this
    · have := ih (a + -y.toInt)
      rwa [Int.add_assoc] at this

/-- The same for products `x0 * x1 * ...`. -/
theorem C02_evaluates_product {l : Member} {r : List MulT} {s : Nat} {st s1 s2 : St F S} {y : I64} {k : Int}
    (hl : Runs (stdHost W matchF fmtV colName num sources) (call (.member l s)) st (.int y) s1)
    (hr : IntFactors (stdHost W matchF fmtV colName num sources) s r s1 k s2) :
    ∃ z, ExactMod64 z (y.toInt * k) ∧ ∀ (v : V F) (st' : St F S),
      Runs (stdHost W matchF fmtV colName num sources) (call (.mul (.mk l r) s)) st v st' ↔
        v = .int z ∧ st' = s2 := by
  refine ⟨_, exactMod_ofInt _, fun v st' => runs_only ?_⟩
  rw [runs_call]
  simp only [body]
  refine runs_bind.2 ⟨_, _, hl, ?_⟩
  clear hl
  have : y = BitVec.ofInt 64 y.toInt := BitVec.ofInt_toInt.symm
  rw [this]
  have e0 : (BitVec.ofInt 64 y.toInt).toInt * k = y.toInt * k := by rw [BitVec.ofInt_toInt]
  rw [e0]
  generalize y.toInt = a
  clear this e0 y
  induction hr generalizing a with
  | nil st => simp only [foldP, Int.mul_one]; exact runs_pure.2 ⟨rfl, rfl⟩
  | @times t r st s1 s2 y k h1 _ ih =>
    simp only [foldP]
    refine runs_bind.2 ⟨.int (BitVec.ofInt 64 (a * y.toInt)), s1, ?_, ?_⟩
    · simp only [mulStepP, if_true]
      refine runs_bind.2 ⟨_, _, h1, ?_⟩
      have := runs_stdArith_int (H := stdHost W matchF fmtV colName num sources) W .mul (by simp)
        (BitVec.ofInt 64 a) y s s1
      rw [BitVec.ofInt_mul, BitVec.ofInt_toInt]
      exact this
    · have := ih (a * y.toInt)
      rwa [Int.mul_assoc] at this

/-! ## C11, C12, C13: subscripts and fields -/

/-- A bound of `[a:b]`: missing, or an expression that evaluates to a number. -/
inductive Bound (H : Host F S) (s : Nat) : Option Value → St F S → Option I64 → St F S → Prop where
  | missing (st : St F S) : Bound H s none st none st
  | given {e : Value} {st s1 : St F S} {v : V F} {i : I64} :
      Runs H (call (.value e s)) st v s1 → v.toInt64 = some i → Bound H s (some e) st (some i) s1

theorem Bound.run {s : Nat} {e : Option Value} {st s1 : St F S} {i : Option I64} (h : Bound H s e st i s1) :
    Runs H (boundP s e) st (some i) s1 := by
  cases h with
  | missing => exact runs_pure.2 ⟨rfl, rfl⟩
  | given h1 h2 =>
    simp only [boundP]
    refine runs_bind.2 ⟨_, _, h1, ?_⟩
    simp only [h2]
    exact runs_pure.2 ⟨rfl, rfl⟩

/-- `x[a:b]` evaluates `x`, `a` and `b` in this order and is the slice Python gives, for
arrays and for strings. -/
theorem C11_evaluates {x : Value} {a b : Option Value} {s : Nat} {st s1 s2 s3 : St F S} {i j : Option I64}
    (ha : Bound (stdHost W matchF fmtV colName num sources) s a s1 i s2)
    (hb : Bound (stdHost W matchF fmtV colName num sources) s b s2 j s3) (v : V F) (st' : St F S) :
    (∀ l, Runs (stdHost W matchF fmtV colName num sources) (call (.value x s)) st (.arr l) s1 →
      l.length < 2 ^ 63 →
      (Runs (stdHost W matchF fmtV colName num sources) (call (.member (.mk x [.range a b]) s)) st v st' ↔
        v = .arr (pySlice l (i.map BitVec.toInt) (j.map BitVec.toInt)) ∧ st' = s3)) ∧
    (∀ l, Runs (stdHost W matchF fmtV colName num sources) (call (.value x s)) st (.str l) s1 →
      l.length < 2 ^ 63 →
      (Runs (stdHost W matchF fmtV colName num sources) (call (.member (.mk x [.range a b]) s)) st v st' ↔
        v = .str (pySlice l (i.map BitVec.toInt) (j.map BitVec.toInt)) ∧ st' = s3)) := by
  constructor
  · intro l hx hl
    apply runs_only
    rw [runs_call]
    simp only [body]
    refine runs_bind.2 ⟨_, _, hx, ?_⟩
    simp only [memberLoopP]
    refine runs_bind.2 ⟨_, _, ha.run, ?_⟩
    refine runs_bind.2 ⟨_, _, hb.run, ?_⟩
    refine runs_bind.2 ⟨(some (.arr (pySlice l (i.map BitVec.toInt) (j.map BitVec.toInt))), true), s3, ?_,
      runs_pure.2 ⟨rfl, rfl⟩⟩
    rw [runs_call]
    simp only [body, stdHost]
    refine runs_pure.2 ⟨?_, rfl⟩
    simp only [defaultAssocFlat, rangeOf_spec l hl]
  · intro l hx hl
    apply runs_only
    rw [runs_call]
    simp only [body]
    refine runs_bind.2 ⟨_, _, hx, ?_⟩
    simp only [memberLoopP]
    refine runs_bind.2 ⟨_, _, ha.run, ?_⟩
    refine runs_bind.2 ⟨_, _, hb.run, ?_⟩
    refine runs_bind.2 ⟨(some (.str (pySlice l (i.map BitVec.toInt) (j.map BitVec.toInt))), true), s3, ?_,
      runs_pure.2 ⟨rfl, rfl⟩⟩
    rw [runs_call]
    simp only [body, stdHost]
    refine runs_pure.2 ⟨?_, rfl⟩
    simp only [defaultAssocFlat, rangeOf_spec l hl]

/-- `x[i]` evaluates `x`, then `i`, and is the element Python gives, or NULL if there is
none. -/
theorem C12_evaluates {x e : Value} {s : Nat} {st s1 s2 : St F S} {k : V F} {i : I64} {l : List (V F)}
    (hx : Runs (stdHost W matchF fmtV colName num sources) (call (.value x s)) st (.arr l) s1)
    (he : Runs (stdHost W matchF fmtV colName num sources) (call (.value e s)) s1 k s2)
    (hk : k.toInt64 = some i) (hl : l.length < 2 ^ 63) (v : V F) (st' : St F S) :
    Runs (stdHost W matchF fmtV colName num sources) (call (.member (.mk x [.index e]) s)) st v st' ↔
      v = (pyIndex l i.toInt).getD .null ∧ st' = s2 := by
  have hns : ∀ t, k ≠ .str t := by intro t h; subst h; simp [Val.toInt64] at hk
  have hd := (C12_index ({} : World F Obj) k i hk).1 l hl (by intro i hi; cases hi)
  have e : assocV ({} : World F Obj) (.arr l) (.val k) = defaultAssocFlat (.arr l) (.val k) := by
    rw [assocV]
    · rfl
    all_goals first | simp | (intros; simp_all)
    exact hns
  have hd : defaultAssocFlat (.arr l) (.val k) =
      ((pyIndex l i.toInt).getD .null, (pyIndex l i.toInt).isSome) := by
    rw [e] at hd
    rw [hd]
    cases pyIndex l i.toInt <;> rfl
  apply runs_only
  rw [runs_call]
  simp only [body]
  refine runs_bind.2 ⟨_, _, hx, ?_⟩
  simp only [memberLoopP]
  refine runs_bind.2 ⟨_, _, he, ?_⟩
  refine runs_bind.2 ⟨(some (defaultAssocFlat (.arr l) (.val k)).1, (defaultAssocFlat (.arr l) (.val k)).2), s2, ?_, ?_⟩
  · rw [runs_call]
    have : body (stdHost W matchF fmtV colName num sources : Host F S) (.assoc (.arr l) (.val k) s) =
        pure (some (defaultAssocFlat (.arr l) (.val k)).1, (defaultAssocFlat (.arr l) (.val k)).2) := by
      cases k <;> first | exact absurd rfl (hns _) | rfl
    rw [this]
    exact runs_pure.2 ⟨rfl, rfl⟩
  · rw [hd]
    cases pyIndex l i.toInt with
    | none => exact runs_pure.2 ⟨rfl, rfl⟩
    | some v => exact runs_pure.2 ⟨rfl, rfl⟩

/-- `NULL.field` is NULL; `d.field` of a dict is the value under the key, or NULL; and
`x.field` of an array of dicts is the list of the values of those that have the key. -/
theorem C13_evaluates {x : Value} {f : Str} {s : Nat} {st s1 : St F S}
    (hm : ident f ∉ dictMethods) (v : V F) (st' : St F S) :
    (Runs (stdHost W matchF fmtV colName num sources) (call (.value x s)) st .null s1 →
      (Runs (stdHost W matchF fmtV colName num sources) (call (.member (.mk x [.field f]) s)) st v st' ↔
        v = .null ∧ st' = s1)) ∧
    (∀ d, Runs (stdHost W matchF fmtV colName num sources) (call (.value x s)) st (.dict d) s1 →
      (Runs (stdHost W matchF fmtV colName num sources) (call (.member (.mk x [.field f]) s)) st v st' ↔
        v = (OD.get d (ident f)).getD .null ∧ st' = s1)) ∧
    (∀ ds : List (OD (V F)),
      Runs (stdHost W matchF fmtV colName num sources) (call (.value x s)) st (.arr (ds.map Val.dict)) s1 →
      (Runs (stdHost W matchF fmtV colName num sources) (call (.member (.mk x [.field f]) s)) st v st' ↔
        v = .arr (ds.filterMap (fun d => OD.get d (ident f))) ∧ st' = s1)) := by
  have hk : dictMethods.contains (ident f) = false := by simpa using hm
  have hdict : ∀ (d : OD (V F)) (st : St F S), Runs (stdHost W matchF fmtV colName num sources)
      (call (.assoc (.dict d) (.val (.str (ident f))) s)) st
      (OD.get d (ident f), (OD.get d (ident f)).isSome) st := by
    intro d st
    rw [runs_call]
    simp only [body, assocStrP, hk]
    cases OD.get d (ident f) <;> exact runs_pure.2 ⟨rfl, rfl⟩
  refine ⟨?_, ?_, ?_⟩
  · intro hx
    apply runs_only
    rw [runs_call]
    simp only [body]
    refine runs_bind.2 ⟨_, _, hx, ?_⟩
    simp only [memberLoopP]
    refine runs_bind.2 ⟨(some .null, true), s1, ?_, runs_pure.2 ⟨rfl, rfl⟩⟩
    rw [runs_call]
    exact runs_pure.2 ⟨rfl, rfl⟩
  · intro d hx
    apply runs_only
    rw [runs_call]
    simp only [body]
    refine runs_bind.2 ⟨_, _, hx, ?_⟩
    simp only [memberLoopP]
    refine runs_bind.2 ⟨_, _, hdict d s1, ?_⟩
    cases OD.get d (ident f) <;> exact runs_pure.2 ⟨rfl, rfl⟩
  · intro ds hx
    apply runs_only
    rw [runs_call]
    simp only [body]
    refine runs_bind.2 ⟨_, _, hx, ?_⟩
    simp only [memberLoopP]
    refine runs_bind.2 ⟨(some (.arr (ds.filterMap (fun d => OD.get d (ident f)))), true), s1, ?_,
      runs_pure.2 ⟨rfl, rfl⟩⟩
    rw [runs_call]
    simp only [body, assocStrP]
    rw [if_neg (by simp [isQuery])]
    have himpl : (stdHost W matchF fmtV colName num sources : Host F S).assocImpl
      (.arr (ds.map Val.dict)) (.val (.str (ident f))) s = none := rfl
    simp only [himpl]
    refine runs_bind.2 ⟨ds.filterMap (fun d => OD.get d (ident f)), s1, ?_, runs_pure.2 ⟨rfl, rfl⟩⟩
    have : ∀ (g : List (V F) → V F → Prog F S (List (V F))),
        (∀ acc d, Runs (stdHost W matchF fmtV colName num sources) (g acc (.dict d)) s1
          (acc ++ (OD.get d (ident f)).toList) s1) →
        ∀ acc, Runs (stdHost W matchF fmtV colName num sources) (foldP g acc (ds.map Val.dict)) s1
          (acc ++ ds.filterMap (fun d => OD.get d (ident f))) s1 := by
      clear hx himpl
      intro g hg
      induction ds with
      | nil => intro acc; simp only [List.map_nil, foldP, List.filterMap_nil, List.append_nil]; exact runs_pure.2 ⟨rfl, rfl⟩
      | cons d ds ih =>
        intro acc
        simp only [List.map_cons, foldP]
        refine runs_bind.2 ⟨_, s1, hg acc d, ?_⟩
        have h := ih (acc ++ (OD.get d (ident f)).toList)
        rw [List.append_assoc] at h
        rw [List.filterMap_cons]
        cases hg : OD.get d (ident f) with
        | none => simpa [hg] using h
        | some w => simpa [hg] using h
    refine this _ (fun acc d => ?_) []
    refine runs_bind.2 ⟨_, _, hdict d s1, ?_⟩
    cases OD.get d (ident f) with
    | none => exact runs_pure.2 ⟨by simp, rfl⟩
    | some w => exact runs_pure.2 ⟨rfl, rfl⟩

/-- Division evaluates the dividend, then the divisor: NULL exactly for a zero divisor, the
quotient otherwise.  Missing from the full claim: a float divisor under another dividend
(`C03_refuted`), and lazy operands. -/
theorem C03_evaluates_partial {l : Member} {r : Value} {s : Nat} {st s1 s2 : St F S} {a b : V F} {x y : F}
    (hl : Runs (stdHost W matchF fmtV colName num sources) (call (.member l s)) st a s1)
    (hr : Runs (stdHost W matchF fmtV colName num sources) (call (.value r s)) s1 b s2)
    (ha : numOf a = some x) (hb : numOf b = some y) (hcase : (∃ f, a = .float f) ∨ ¬ ∃ g, b = .float g)
    (v : V F) (st' : St F S) :
    Runs (stdHost W matchF fmtV colName num sources) (call (.mul (.mk l [.mk (bs "/") r]) s)) st v st' ↔
      v = (if FloatOps.eq y FloatOps.zero then .null else .float (FloatOps.div x y)) ∧ st' = s2 := by
  rw [← C03_div_partial W a b x y ha hb hcase]
  refine runs_only (runs_mul_two W matchF fmtV colName num sources (c := .null) hl hr ?_ ?_).2
  · rintro c rfl; simp [numOf] at ha
  · rintro c rfl; simp [numOf] at hb

end
end

section
variable {F S : Type} [LawfulFloat F] (W : World F Obj) (matchF : V F → V F → Bool) (fmtV : V F → Str)
  (colName : Col → Str) (num : Str → Option (V F)) (sources : OD (List (V F)))

/-- `a + b`, `a - b` and `a * b` of two numbers of which one is a float. -/
theorem C62_evaluates {l r : MulE} {l' : Member} {r' : Value} {s : Nat} {st s1 s2 : St F S} {a b : V F} {x y : F}
    (ha : asFloat a = some x) (hb : asFloat b = some y)
    (hf : (∃ f, a = .float f) ∨ (∃ f, b = .float f)) (v : V F) (st' : St F S) :
    (Runs (stdHost W matchF fmtV colName num sources) (call (.mul l s)) st a s1 →
      Runs (stdHost W matchF fmtV colName num sources) (call (.mul r s)) s1 b s2 →
      (Runs (stdHost W matchF fmtV colName num sources) (call (.add (.mk l [.mk (bs "+") r]) s)) st v st' ↔
        v = .float (FloatOps.add x y) ∧ st' = s2) ∧
      (Runs (stdHost W matchF fmtV colName num sources) (call (.add (.mk l [.mk (bs "-") r]) s)) st v st' ↔
        v = .float (FloatOps.sub x y) ∧ st' = s2)) ∧
    (Runs (stdHost W matchF fmtV colName num sources) (call (.member l' s)) st a s1 →
      Runs (stdHost W matchF fmtV colName num sources) (call (.value r' s)) s1 b s2 →
      (Runs (stdHost W matchF fmtV colName num sources) (call (.mul (.mk l' [.mk (bs "*") r']) s)) st v st' ↔
        v = .float (FloatOps.mul x y) ∧ st' = s2)) := by
  have h := C62_mixed_numbers W a b x y ha hb hf
  have na : Ready a := by rintro c rfl; simp [asFloat] at ha
  have nb : Ready b := by rintro c rfl; simp [asFloat] at hb
  refine ⟨fun hl hr => ⟨?_, ?_⟩, fun hl hr => ?_⟩
  · rw [← h.1]; exact runs_only (runs_add_two W matchF fmtV colName num sources hl hr na nb).1
  · rw [← h.2.1]; exact runs_only (runs_add_two W matchF fmtV colName num sources hl hr na nb).2
  · exact runs_only ((runs_mul_two W matchF fmtV colName num sources hl hr na nb).1 h.2.2)

end

/-! ## Examples -/

/-- The value of an expression over the demo sources, and how many lines were logged. -/
def opsDemo (e : AndE) : Option (V F64 × Nat) :=
  (exec (demo demoSrc) 60 (call (.and e 0)) (St.init [(bs "x", .arr [.int 1#64, .int 2#64, .int 3#64])])).map
    (fun r => (r.1, r.2.log.length))

def opsIs (e : AndE) (v : V F64) (n : Nat) : Bool :=
  match opsDemo e with
  | some (w, k) => sameV w v && decide (k = n)
  | none => false

def CondV (v : Value) : Cond := .cmp (.mk (.mk (.mk v []) []) []) none
def OrV (v : Value) : OrE := .mk (CondV v) []

/-- `0 AND nope`: the name after a false operand is not looked up. -/
example : opsIs (.mk (OrV (.int "0")) [.mk (bs "AND") (OrV (.name 1 "nope"))]) (.bool false) 0 = true := by
  decide +kernel
/-- `1 && 7` is 7 and `1 AND 7` is TRUE. -/
example : opsIs (.mk (OrV (.int "1")) [.mk (bs "&&") (OrV (.int "7"))]) (.int 7#64) 0 = true := by
  decide +kernel
example : opsIs (.mk (OrV (.int "1")) [.mk (bs "AND") (OrV (.int "7"))]) (.bool true) 0 = true := by
  decide +kernel
/-- `0 || 5 || nope` is 5. -/
example : opsIs (.mk (.mk (CondV (.int "0")) [.mk (bs "||") (CondV (.int "5")),
    .mk (bs "||") (CondV (.name 1 "nope"))]) []) (.int 5#64) 0 = true := by decide +kernel
/-- `"a\"b"` -/
example : opsIs (.val (.str (bs "\"a\\\"b\""))) (.str (bs "a\"b")) 0 = true := by decide +kernel
/-- `7 - 2 - 1` is 4. -/
example : opsIs (.mk (.mk (.cmp (.mk (.mk (.mk (.int "7") []) []) [.mk (bs "-") (.mk (.mk (.int "2") []) []),
    .mk (bs "-") (.mk (.mk (.int "1") []) [])]) none) []) []) (.int 4#64) 0 = true := by decide +kernel
/-- `x[1:]`, `x[2]` and `x[9]` for the array `[1, 2, 3]`. -/
example : opsIs (.mk (.mk (.cmp (.mk (.mk (.mk (.name 1 "x") [.range (some (.int "1")) none]) []) []) none) []) [])
    (.arr [.int 2#64, .int 3#64]) 0 = true := by decide +kernel
example : opsIs (.mk (.mk (.cmp (.mk (.mk (.mk (.name 1 "x") [.index (.int "2")]) []) []) none) []) [])
    (.int 3#64) 0 = true := by decide +kernel
example : opsIs (.mk (.mk (.cmp (.mk (.mk (.mk (.name 1 "x") [.index (.int "9")]) []) []) none) []) [])
    .null 0 = true := by decide +kernel
/-- `2 <= 2` -/
example : opsIs (.mk (.mk (.cmp (.mk (.mk (.mk (.int "2") []) []) []) (some (.mk (bs "<=")
    (.mk (.mk (.mk (.int "2") []) []) [])))) []) []) (.bool true) 0 = true := by decide +kernel

end Vfilter.Vql
