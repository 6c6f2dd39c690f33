import Verif.Logic
import Verif.F64
/-!
# C09, C10: comparison operators and AND / OR chains
-/
set_option linter.all false

namespace Vfilter

section
variable {F X : Type} [FloatOps F]

/-! ## C09 -/

/-- Every operator spelling the lexer and grammar accept (vfilter.go:165, 172, 1003):
the symbols, and `IN` in any letter case. -/
def AcceptedOp (op : Str) : Prop :=
  op ∈ [bs "<>", bs "<=", bs ">=", bs "=", bs "<", bs ">", bs "!=", bs "=~",
        bs "IN", bs "In", bs "iN", bs "in"]

/-- What the operator is documented to mean. -/
def opMeaning (eq lt gt mem mat : Bool) (op : Str) : Option Bool :=
  if op = bs "=" then some eq
  else if op = bs "!=" ∨ op = bs "<>" then some (!eq)
  else if op = bs "<" then some lt
  else if op = bs ">" then some gt
  else if op = bs "<=" then some (lt || eq)
  else if op = bs ">=" then some (gt || eq)
  else if op = bs "=~" then some mat
  else if op = bs "IN" ∨ op = bs "In" ∨ op = bs "in" ∨ op = bs "iN" then some mem
  else none

/-- Every accepted operator other than `<>` means what it says, in every spelling.
Missing from the full claim: `<>` (`C09_refuted`). -/
theorem C09_operators_partial (W : World F X) (matchF : Val F X → Val F X → Bool) (op : Str)
    (a b : Val F X) (hop : AcceptedOp op) (h1 : op ≠ bs "<>") :
    opMeaning (eqV W a b) (ltV W a b) (gtV W a b) (memV W a b) (matchF b a) op =
      some (condOp W matchF (opText op) a b) := by
  simp only [AcceptedOp, List.mem_cons, List.not_mem_nil, or_false] at hop
  rcases hop with rfl | rfl | rfl | rfl | rfl | rfl | rfl | rfl | rfl | rfl | rfl | rfl <;>
    first | exact absurd rfl h1 | rfl

/-- `NOT x` is the complement of the truth value of `x`; comparisons evaluate the left
operand, then the right one, each once, and give a boolean. -/
theorem C09_not_and_boolean {S : Type} (W : World F X) (matchF : Val F X → Val F X → Bool) (op : Str)
    (l r : Term S (Val F X)) (s : S) :
    (notReduce W l s = (.bool (!(truthy W (l s).1)), (l s).2)) ∧
    (truthy W (notReduce W l s).1 = !(truthy W (l s).1)) ∧
    (∃ b, (condReduce W matchF op l r s).1 = .bool b) ∧
    (condReduce W matchF op l r s).2 = (r (l s).2).2 := by
  simp [notReduce, condReduce, truthy]

end

example : AcceptedOp (bs "iN") ∧ bs "iN" ≠ bs "<>" := by
  simp [AcceptedOp, bs]

/-- `1 <> 2` is false, and so is `1 <> 1`. -/
theorem C09_refuted :
    AcceptedOp (bs "<>") ∧
    condOp ({} : World F64 Unit) (fun _ _ => false) (opText (bs "<>")) (.int 1) (.int 2) = false ∧
    condOp ({} : World F64 Unit) (fun _ _ => false) (opText (bs "<>")) (.int 1) (.int 1) = false := by
  refine ⟨by simp [AcceptedOp], by decide +kernel, by decide +kernel⟩

/-! ## C10 -/

section
variable {F X : Type} [FloatOps F] {S : Type}

/-- Evaluate terms in order. -/
def evalAll : List (Term S (Val F X)) → S → List (Val F X) × S
  | [], s => ([], s)
  | t :: r, s =>
    let p := t s
    let q := evalAll r p.2
    (p.1 :: q.1, q.2)

/-- The terms of a chain. -/
def chainTerms (left : Term S (Val F X)) (right : List (Str × Term S (Val F X))) :
    List (Term S (Val F X)) := left :: right.map (·.2)

/-- Specification of an evaluated chain: exactly the first `k` terms were evaluated, in
order, none of them stops the chain except possibly the last; if `k` is not all of
them then the last one evaluated does stop the chain. -/
structure Evaluated (W : World F X) (stop : Bool) (terms : List (Term S (Val F X))) (s s' : S)
    (vals : List (Val F X)) : Prop where
  prefix_ : vals.length ≤ terms.length
  run : evalAll (terms.take vals.length) s = (vals, s')
  nonempty : vals ≠ []
  before : ∀ v ∈ vals.dropLast, truthy W v = !stop
  after : vals.length < terms.length → ∃ v, vals.getLast? = some v ∧ truthy W v = stop

theorem Evaluated.cons {W : World F X} {stop : Bool} {t : Term S (Val F X)}
    {ts : List (Term S (Val F X))} {s s' : S} {vals : List (Val F X)}
    (ht : truthy W (t s).1 = !stop) (h : Evaluated W stop ts (t s).2 s' vals) :
    Evaluated W stop (t :: ts) s s' ((t s).1 :: vals) := by
  obtain ⟨h1, h2, h3, h4, h5⟩ := h
  obtain ⟨v, vs, rfl⟩ : ∃ v vs, vals = v :: vs := by
    cases vals with
    | nil => exact absurd rfl h3
    | cons v vs => exact ⟨v, vs, rfl⟩
  refine ⟨by simpa using h1, ?_, by simp, ?_, ?_⟩
  · simp only [List.length_cons, List.take_succ_cons, evalAll] at h2 ⊢
    rw [h2]
  · intro w hw
    simp only [List.dropLast_cons₂, List.mem_cons] at hw
    rcases hw with rfl | hw
    · exact ht
    · exact h4 w hw
  · intro hl
    obtain ⟨w, hw, hw'⟩ := h5 (by simpa using hl)
    exact ⟨w, by simpa [List.getLast?_cons_cons] using hw, hw'⟩

theorem Evaluated.stop {W : World F X} {stop : Bool} {t : Term S (Val F X)}
    {ts : List (Term S (Val F X))} {s : S} (ht : truthy W (t s).1 = stop) :
    Evaluated W stop (t :: ts) s (t s).2 [(t s).1] := by
  refine ⟨by simp, by simp [evalAll], by simp, by simp, ?_⟩
  intro _; exact ⟨_, rfl, ht⟩

theorem Evaluated.single {W : World F X} {stop : Bool} {t : Term S (Val F X)} {s : S} :
    Evaluated W stop [t] s (t s).2 [(t s).1] := by
  refine ⟨by simp, by simp [evalAll], by simp, by simp, by simp⟩

theorem truthy_bool (W : World F X) (b : Bool) : truthy W (.bool b) = b := rfl

theorem andLoop_spec (W : World F X) (last : Val F X) (right : List (Str × Term S (Val F X))) (s : S)
    (hl : truthy W last = true) (hr : right ≠ []) :
    ∃ vals, Evaluated W false (right.map (·.2)) s (andLoop W last right s).2 vals ∧
      ((∀ v ∈ vals, truthy W v = true) ↔ truthy W (andLoop W last right s).1 = true) ∧
      ((∃ v ∈ vals, truthy W v = false) → (andLoop W last right s).1 = .bool false) ∧
      ((∀ v ∈ vals, truthy W v = true) → ∀ op t, right.getLast? = some (op, t) →
        (op = bs "&&" → vals.getLast? = some (andLoop W last right s).1) ∧
        (op ≠ bs "&&" → (andLoop W last right s).1 = .bool true)) := by
  induction right generalizing last s with
  | nil => exact absurd rfl hr
  | cons p r ih =>
    obtain ⟨op, t⟩ := p
    cases hv : truthy W (t s).1 with
    | false =>
      have he : andLoop W last ((op, t) :: r) s = (.bool false, (t s).2) := by simp [andLoop, hv]
      refine ⟨[(t s).1], ?_, ?_, ?_, ?_⟩
      · rw [he]; exact Evaluated.stop hv
      · rw [he]; simp [truthy_bool, hv]
      · rw [he]; simp
      · intro h; simp [hv] at h
    | true =>
      by_cases hr' : r = []
      · subst hr'
        have he : andLoop W last [(op, t)] s = (if op = bs "&&" then (t s).1 else .bool true, (t s).2) := by
          simp [andLoop, hv]
        have ht : truthy W (if op = bs "&&" then (t s).1 else .bool true) = true := by
          split
          · exact hv
          · rfl
        refine ⟨[(t s).1], ?_, ?_, ?_, ?_⟩
        · rw [he]; exact Evaluated.single
        · rw [he]; simp [hv, ht]
        · simp [hv]
        · intro _ op' t' h
          simp at h
          obtain ⟨rfl, rfl⟩ := h
          rw [he]
          constructor
          · intro h; simp [h]
          · intro h; simp [h]
      · have ht : truthy W (if op = bs "&&" then (t s).1 else .bool true) = true := by
          split
          · exact hv
          · rfl
        obtain ⟨vals, h1, h2, h3, h4⟩ := ih _ (t s).2 ht hr'
        have he : andLoop W last ((op, t) :: r) s =
            andLoop W (if op = bs "&&" then (t s).1 else .bool true) r (t s).2 := by
          simp [andLoop, hv]
        refine ⟨(t s).1 :: vals, ?_, ?_, ?_, ?_⟩
        · rw [he]; exact Evaluated.cons (by simpa using hv) h1
        · rw [he]; simp only [List.mem_cons, forall_eq_or_imp, hv, true_and]; exact h2
        · rw [he]
          rintro ⟨v, hv', hf⟩
          simp only [List.mem_cons] at hv'
          rcases hv' with rfl | hv'
          · rw [hv] at hf; simp at hf
          · exact h3 ⟨v, hv', hf⟩
        · intro hall op' t' hlast
          rw [he]
          have hlast' : r.getLast? = some (op', t') := by
            cases r with
            | nil => exact absurd rfl hr'
            | cons q r' => simpa [List.getLast?_cons_cons] using hlast
          have := h4 (fun v hv' => hall v (by simp [hv'])) op' t' hlast'
          refine ⟨fun h => ?_, this.2⟩
          have h' := this.1 h
          cases vals with
          | nil => simp at h'
          | cons q r' => simpa [List.getLast?_cons_cons] using h'

/-- AND / && chains, for any terms with any side effects: exactly a prefix of the terms
is evaluated, left to right, ending at the first falsy one; the result is truthy iff
every term is; a falsy term makes the value FALSE; otherwise the value is the last
term's value when the last operator is `&&` and TRUE when it is `AND`. -/
theorem C10_and (W : World F X) (left : Term S (Val F X)) (right : List (Str × Term S (Val F X)))
    (hr : right ≠ []) (s : S) :
    ∃ vals, Evaluated W false (chainTerms left right) s (andReduce W left right s).2 vals ∧
      (truthy W (andReduce W left right s).1 = true ↔
        vals.length = (chainTerms left right).length ∧ ∀ v ∈ vals, truthy W v = true) ∧
      ((∃ v ∈ vals, truthy W v = false) → (andReduce W left right s).1 = .bool false) ∧
      ((∀ v ∈ vals, truthy W v = true) → ∀ op t, right.getLast? = some (op, t) →
        (op = bs "&&" → vals.getLast? = some (andReduce W left right s).1) ∧
        (op ≠ bs "&&" → (andReduce W left right s).1 = .bool true)) := by
  obtain ⟨q, r, rfl⟩ : ∃ q r, right = q :: r := by
    cases right with
    | nil => exact absurd rfl hr
    | cons q r => exact ⟨q, r, rfl⟩
  have full : ∀ vals : List (Val F X), ∀ s', Evaluated W false (chainTerms left (q :: r)) s s' vals →
      (∀ v ∈ vals, truthy W v = true) → vals.length = (chainTerms left (q :: r)).length := by
    intro vals s' he hall
    rcases Nat.lt_or_eq_of_le he.prefix_ with h | h
    · obtain ⟨v, hv, hf⟩ := he.after h
      rw [hall v (List.mem_of_getLast? hv)] at hf; simp at hf
    · exact h
  cases hv : truthy W (left s).1 with
  | false =>
    have he : andReduce W left (q :: r) s = (.bool false, (left s).2) := by simp [andReduce, hv]
    refine ⟨[(left s).1], ?_, ?_, ?_, ?_⟩
    · rw [he]; exact Evaluated.stop hv
    · rw [he]; simp [truthy_bool, hv]
    · rw [he]; simp
    · intro h; simp [hv] at h
  | true =>
    have he : andReduce W left (q :: r) s = andLoop W (left s).1 (q :: r) (left s).2 := by
      simp [andReduce, hv]
    obtain ⟨vals, h1, h2, h3, h4⟩ := andLoop_spec W (left s).1 (q :: r) (left s).2 hv (by simp)
    have hE : Evaluated W false (chainTerms left (q :: r)) s (andReduce W left (q :: r) s).2
        ((left s).1 :: vals) := by
      rw [he]; exact Evaluated.cons (by simpa using hv) h1
    refine ⟨(left s).1 :: vals, hE, ?_, ?_, ?_⟩
    · rw [he] at hE ⊢
      rw [← h2]
      constructor
      · intro hall
        have hall' : ∀ v ∈ (left s).1 :: vals, truthy W v = true := by
          intro v hm
          simp only [List.mem_cons] at hm
          rcases hm with rfl | hm
          · exact hv
          · exact hall v hm
        exact ⟨full _ _ hE hall', hall'⟩
      · rintro ⟨_, hall⟩ v hm
        exact hall v (by simp [hm])
    · rw [he]
      rintro ⟨v, hv', hf⟩
      simp only [List.mem_cons] at hv'
      rcases hv' with rfl | hv'
      · rw [hv] at hf; simp at hf
      · exact h3 ⟨v, hv', hf⟩
    · intro hall op t hlast
      rw [he]
      have := h4 (fun v hv' => hall v (by simp [hv'])) op t hlast
      refine ⟨fun h => ?_, this.2⟩
      have h' := this.1 h
      cases vals with
      | nil => simp at h'
      | cons q r' => simpa [List.getLast?_cons_cons] using h'

theorem orLoop_spec (W : World F X) (last : Val F X) (right : List (Str × Term S (Val F X))) (s : S)
    (hr : right ≠ []) :
    ∃ vals, Evaluated W true (right.map (·.2)) s (orLoop W last right s).2 vals ∧
      ((∃ v ∈ vals, truthy W v = true) ↔ truthy W (orLoop W last right s).1 = true) ∧
      ((∀ v ∈ vals, truthy W v = false) → vals.getLast? = some (orLoop W last right s).1) ∧
      ((∃ v ∈ vals, truthy W v = true) → ∃ op, (right[vals.length - 1]?).map (·.1) = some op ∧
        (op = bs "||" → vals.getLast? = some (orLoop W last right s).1) ∧
        (op ≠ bs "||" → (orLoop W last right s).1 = .bool true)) := by
  induction right generalizing last s with
  | nil => exact absurd rfl hr
  | cons p r ih =>
    obtain ⟨op, t⟩ := p
    cases hv : truthy W (t s).1 with
    | true =>
      have he : orLoop W last ((op, t) :: r) s = (if op = bs "||" then (t s).1 else .bool true, (t s).2) := by
        simp [orLoop, hv]
      have ht : truthy W (if op = bs "||" then (t s).1 else .bool true) = true := by
        split
        · exact hv
        · rfl
      refine ⟨[(t s).1], ?_, ?_, ?_, ?_⟩
      · rw [he]; exact Evaluated.stop hv
      · rw [he]; simp [hv, ht]
      · simp [hv]
      · intro _
        refine ⟨op, by simp, ?_, ?_⟩
        · intro h; rw [he]; simp [h]
        · intro h; rw [he]; simp [h]
    | false =>
      have he : orLoop W last ((op, t) :: r) s = orLoop W (t s).1 r (t s).2 := by
        simp [orLoop, hv]
      by_cases hr' : r = []
      · subst hr'
        refine ⟨[(t s).1], ?_, ?_, ?_, ?_⟩
        · rw [he]; exact Evaluated.single
        · rw [he]; simp [orLoop, hv]
        · rw [he]; simp [orLoop]
        · simp [hv]
      · obtain ⟨vals, h1, h2, h3, h4⟩ := ih (t s).1 (t s).2 hr'
        have hne := h1.nonempty
        obtain ⟨w, ws, rfl⟩ : ∃ w ws, vals = w :: ws := by
          cases vals with
          | nil => exact absurd rfl hne
          | cons w ws => exact ⟨w, ws, rfl⟩
        refine ⟨(t s).1 :: w :: ws, ?_, ?_, ?_, ?_⟩
        · rw [he]; exact Evaluated.cons (by simpa using hv) h1
        · rw [he, ← h2]
          constructor
          · rintro ⟨v, hm, hvt⟩
            rw [List.mem_cons] at hm
            rcases hm with rfl | hm
            · rw [hv] at hvt; simp at hvt
            · exact ⟨v, hm, hvt⟩
          · rintro ⟨v, hm, hvt⟩
            exact ⟨v, List.mem_cons_of_mem _ hm, hvt⟩
        · intro hall
          rw [he, List.getLast?_cons_cons]
          exact h3 (fun v hm => hall v (List.mem_cons_of_mem _ hm))
        · rintro ⟨v, hm, hvt⟩
          rw [List.mem_cons] at hm
          rcases hm with rfl | hm
          · rw [hv] at hvt; simp at hvt
          · obtain ⟨op', h5, h6, h7⟩ := h4 ⟨v, hm, hvt⟩
            refine ⟨op', ?_, ?_, ?_⟩
            · simpa using h5
            · rw [he, List.getLast?_cons_cons]; exact h6
            · rw [he]; exact h7

/-- OR / || chains, for any terms with any side effects: exactly a prefix of the terms
is evaluated, left to right, ending at the first truthy one; the result is truthy iff
some term is; if all are falsy the value is that of the last term; if the chain is
decided by a term after the first, the value is that term's for `||` and TRUE for `OR`;
if it is decided by the first term, the value is that of the first term. -/
theorem C10_or (W : World F X) (left : Term S (Val F X)) (right : List (Str × Term S (Val F X)))
    (hr : right ≠ []) (s : S) :
    ∃ vals, Evaluated W true (chainTerms left right) s (orReduce W left right s).2 vals ∧
      (truthy W (orReduce W left right s).1 = true ↔ ∃ v ∈ vals, truthy W v = true) ∧
      ((∀ v ∈ vals, truthy W v = false) → vals.getLast? = some (orReduce W left right s).1) ∧
      ((∃ v ∈ vals, truthy W v = true) →
        (vals.length = 1 → vals = [(orReduce W left right s).1]) ∧
        (1 < vals.length → ∃ op, (right[vals.length - 2]?).map (·.1) = some op ∧
          (op = bs "||" → vals.getLast? = some (orReduce W left right s).1) ∧
          (op ≠ bs "||" → (orReduce W left right s).1 = .bool true))) := by
  obtain ⟨q, r, rfl⟩ : ∃ q r, right = q :: r := by
    cases right with
    | nil => exact absurd rfl hr
    | cons q r => exact ⟨q, r, rfl⟩
  cases hv : truthy W (left s).1 with
  | true =>
    have he : orReduce W left (q :: r) s = ((left s).1, (left s).2) := by simp [orReduce, hv]
    refine ⟨[(left s).1], ?_, ?_, ?_, ?_⟩
    · rw [he]; exact Evaluated.stop hv
    · rw [he]; simp [hv]
    · simp [hv]
    · intro _; rw [he]; simp
  | false =>
    have he : orReduce W left (q :: r) s = orLoop W (left s).1 (q :: r) (left s).2 := by
      simp [orReduce, hv]
    obtain ⟨vals, h1, h2, h3, h4⟩ := orLoop_spec W (left s).1 (q :: r) (left s).2 (by simp)
    have hne := h1.nonempty
    obtain ⟨w, ws, rfl⟩ : ∃ w ws, vals = w :: ws := by
      cases vals with
      | nil => exact absurd rfl hne
      | cons w ws => exact ⟨w, ws, rfl⟩
    refine ⟨(left s).1 :: w :: ws, ?_, ?_, ?_, ?_⟩
    · rw [he]; exact Evaluated.cons (by simpa using hv) h1
    · rw [he, ← h2]
      constructor
      · rintro ⟨v, hm, hvt⟩
        exact ⟨v, List.mem_cons_of_mem _ hm, hvt⟩
      · rintro ⟨v, hm, hvt⟩
        rw [List.mem_cons] at hm
        rcases hm with rfl | hm
        · rw [hv] at hvt; simp at hvt
        · exact ⟨v, hm, hvt⟩
    · intro hall
      rw [he, List.getLast?_cons_cons]
      exact h3 (fun v hm => hall v (List.mem_cons_of_mem _ hm))
    · rintro ⟨v, hm, hvt⟩
      rw [List.mem_cons] at hm
      rcases hm with rfl | hm
      · rw [hv] at hvt; simp at hvt
      · refine ⟨by simp, fun _ => ?_⟩
        obtain ⟨op', h5, h6, h7⟩ := h4 ⟨v, hm, hvt⟩
        refine ⟨op', by simpa using h5, ?_, ?_⟩
        · rw [he, List.getLast?_cons_cons]; exact h6
        · rw [he]; exact h7

end

/-! ### Concrete cases -/

/-- A term that returns `v` and records that it ran. -/
def rec1 (n : Nat) (v : Val F64 Unit) : Term (List Nat) (Val F64 Unit) := fun s => (v, s ++ [n])

example : andReduce ({} : World F64 Unit) (rec1 0 (.int 1))
    [(bs "AND", rec1 1 (.str [])), (bs "&&", rec1 2 (.int 5))] [] = (.bool false, [0, 1]) := rfl
example : orReduce ({} : World F64 Unit) (rec1 0 .null)
    [(bs "OR", rec1 1 (.int 0)), (bs "||", rec1 2 (.int 5)), (bs "OR", rec1 3 .null)] [] =
    (.int 5, [0, 1, 2]) := rfl

/-- The claim "the value is TRUE/FALSE for AND/OR" fails for OR: `5 OR 1` is 5 and
`0 OR NULL` is NULL. -/
theorem C10_or_value_refuted :
    (orReduce ({} : World F64 Unit) (rec1 0 (.int 5)) [(bs "OR", rec1 1 (.int 1))] []).1 = .int 5 ∧
    (orReduce ({} : World F64 Unit) (rec1 0 (.int 0)) [(bs "OR", rec1 1 .null)] []).1 = .null := ⟨rfl, rfl⟩

end Vfilter
