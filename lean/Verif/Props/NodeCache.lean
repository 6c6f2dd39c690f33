import Verif.NodeCache
/-!
# C96: syntax nodes shared by goroutines
-/

namespace Vfilter.NodeCache

variable {A : Type}

/-- The node of a call. -/
def PC.node : PC A → Nat
  | .start n => n
  | .miss n => n
  | .fin n _ _ => n

/-- The call has been told to negate. -/
def PC.told : PC A → Bool
  | .fin _ _ g => g
  | _ => false

/-- The call has finished. -/
def PC.done : PC A → Bool
  | .fin _ _ _ => true
  | _ => false

/-- How many calls of a node satisfy a condition. -/
def count (p : PC A → Bool) (n : Nat) (cs : List (PC A)) : Nat :=
  cs.countP (fun c => decide (c.node = n) && p c)

/-- What holds in every state. -/
structure Inv (N : Nodes A) (σ : St A) : Prop where
  cell : ∀ n a, σ.cell n = some a → a = N.value n
  calls : ∀ c ∈ σ.calls, ∀ n a g, c = .fin n a g → a = N.value n
  kept : ∀ c ∈ σ.calls, ∀ n a g, c = .fin n a g → (σ.cell n).isSome
  miss : ∀ c ∈ σ.calls, ∀ n, c = .miss n → N.kind n = .two
  told : ∀ n, N.kind n = .one →
    count PC.told n σ.calls = if (σ.cell n).isSome && N.minus n then 1 else 0

theorem inv_init (N : Nodes A) (ns : List Nat) : Inv N (St.init ns) := by
  refine ⟨?_, ?_, ?_, ?_, ?_⟩
  · intro n a h; cases h
  · intro c hc n a g e
    obtain ⟨x, _, rfl⟩ := List.mem_map.mp hc
    cases e
  · intro c hc n a g e
    obtain ⟨x, _, rfl⟩ := List.mem_map.mp hc
    cases e
  · intro c hc n e
    obtain ⟨x, _, rfl⟩ := List.mem_map.mp hc
    cases e
  · intro n _
    simp only [St.init, Option.isSome_none, Bool.false_and, Bool.false_eq_true, if_false, count]
    rw [List.countP_eq_zero]
    intro c hc
    obtain ⟨x, _, rfl⟩ := List.mem_map.mp hc
    simp [PC.told]

theorem count_set {p : PC A → Bool} {n : Nat} {c d : PC A} :
    ∀ {cs : List (PC A)} {i : Nat}, cs[i]? = some c →
      count p n (cs.set i d) + (if c.node = n ∧ p c = true then 1 else 0) =
        count p n cs + (if d.node = n ∧ p d = true then 1 else 0) := by
  intro cs
  induction cs with
  | nil => intro i h; simp at h
  | cons x xs ih =>
    intro i h
    cases i with
    | zero =>
      simp only [List.getElem?_cons_zero, Option.some.injEq] at h
      subst h
      simp only [count, List.set_cons_zero, List.countP_cons, Bool.and_eq_true, decide_eq_true_eq]
      omega
    | succ i =>
      have := ih (i := i) (by simpa using h)
      simp only [count, List.set_cons_succ, List.countP_cons, Bool.and_eq_true, decide_eq_true_eq] at this ⊢
      omega

theorem advance_node (N : Nodes A) (cell : Nat → Option A) (c : PC A) :
    (advance N cell c).2.node = c.node := by
  cases c with
  | start n =>
    simp only [advance]
    cases cell n with
    | some a => rfl
    | none => cases N.kind n <;> rfl
  | miss n => rfl
  | fin n a g => rfl

theorem inv_step {N : Nodes A} {σ : St A} (h : Inv N σ) (i : Nat) : Inv N (step N σ i) := by
  unfold step
  cases hc : σ.calls[i]? with
  | none => exact h
  | some c =>
    have hm : c ∈ σ.calls := List.mem_of_getElem? hc
    have hcell : ∀ n a, (advance N σ.cell c).1 n = some a → a = N.value n := by
      intro n a
      cases c with
      | start m =>
        simp only [advance]
        cases hx : σ.cell m with
        | some b => exact h.cell n a
        | none =>
          cases N.kind m with
          | one =>
            simp only [put]
            intro e
            by_cases hk : n = m
            · rw [if_pos hk] at e; cases e; rw [hk]
            · rw [if_neg hk] at e; exact h.cell n a e
          | two => exact h.cell n a
      | miss m =>
        simp only [advance, put]
        intro e
        by_cases hk : n = m
        · rw [if_pos hk] at e; cases e; rw [hk]
        · rw [if_neg hk] at e; exact h.cell n a e
      | fin m b g => exact h.cell n a
    have hgrow : ∀ n, (σ.cell n).isSome → ((advance N σ.cell c).1 n).isSome := by
      intro n hn
      cases c with
      | start m =>
        simp only [advance]
        cases hx : σ.cell m with
        | some b => exact hn
        | none =>
          cases N.kind m with
          | one => simp only [put]; split <;> simp [hn]
          | two => exact hn
      | miss m => simp only [advance, put]; split <;> simp [hn]
      | fin m b g => exact hn
    have hfin : ∀ n a g, (advance N σ.cell c).2 = .fin n a g →
        a = N.value n ∧ ((advance N σ.cell c).1 n).isSome := by
      intro n a g
      cases c with
      | start m =>
        simp only [advance]
        cases hx : σ.cell m with
        | some b =>
          intro e
          cases e
          exact ⟨h.cell _ _ hx, by simp [hx]⟩
        | none =>
          cases N.kind m with
          | one => intro e; cases e; exact ⟨rfl, by simp [put]⟩
          | two => intro e; cases e
      | miss m => intro e; cases e; exact ⟨rfl, by simp [advance, put]⟩
      | fin m b g' =>
        intro e
        cases e
        exact ⟨h.calls _ hm _ _ _ rfl, h.kept _ hm _ _ _ rfl⟩
    refine ⟨hcell, ?_, ?_, ?_, ?_⟩
    · intro d hd n a g e
      rcases List.mem_or_eq_of_mem_set hd with hd | hd
      · exact h.calls d hd n a g e
      · exact (hfin n a g (hd ▸ e)).1
    · intro d hd n a g e
      rcases List.mem_or_eq_of_mem_set hd with hd | hd
      · exact hgrow n (h.kept d hd n a g e)
      · exact (hfin n a g (hd ▸ e)).2
    · intro d hd n e
      rcases List.mem_or_eq_of_mem_set hd with hd | hd
      · exact h.miss d hd n e
      · have e' : (advance N σ.cell c).2 = .miss n := hd ▸ e
        cases c with
        | start m =>
          simp only [advance] at e'
          cases hx : σ.cell m with
          | some b => rw [hx] at e'; cases e'
          | none =>
            rw [hx] at e'
            cases hk : N.kind m with
            | one => rw [hk] at e'; cases e'
            | two => rw [hk] at e'; cases e'; exact hk
        | miss m => cases e'
        | fin m b g => cases e'
    · intro n hn
      have hs := count_set (p := PC.told) (n := n) (d := (advance N σ.cell c).2) hc
      have ht := h.told n hn
      have hnode := advance_node N σ.cell c
      by_cases hcn : c.node = n
      · cases c with
        | start m =>
          have hcn : m = n := hcn
          subst hcn
          cases hx : σ.cell m with
          | some b =>
            have e : advance N σ.cell (.start m) = (σ.cell, .fin m b false) := by simp [advance, hx]
            simp only [e] at hs ⊢
            simp only [PC.told, Bool.false_eq_true, and_false, if_false, Nat.add_zero] at hs
            rw [hs, ht]
          | none =>
            have e : advance N σ.cell (.start m) =
                (put σ.cell m (N.value m), .fin m (N.value m) (N.minus m)) := by simp [advance, hx, hn]
            simp only [e] at hs ⊢
            have ht' : count PC.told m σ.calls = 0 := by rw [ht, hx]; simp
            simp only [PC.told, PC.node, Bool.false_eq_true, and_false, if_false, Nat.add_zero, true_and, ht',
              Nat.zero_add] at hs
            rw [hs]
            simp [put]
        | miss m =>
          have hcn : m = n := hcn
          subst hcn
          have := h.miss _ hm _ rfl
          rw [hn] at this
          cases this
        | fin m b g =>
          have e : advance N σ.cell (.fin m b g) = (σ.cell, .fin m b g) := rfl
          simp only [e] at hs ⊢
          omega
      · have hcn' : (advance N σ.cell c).2.node ≠ n := hnode ▸ hcn
        rw [if_neg (fun x => hcn x.1), if_neg (fun x => hcn' x.1)] at hs
        have hsame : (advance N σ.cell c).1 n = σ.cell n := by
          cases c with
          | start m =>
            simp only [advance]
            cases hx : σ.cell m with
            | some b => rfl
            | none =>
              cases N.kind m with
              | one => simp only [put]; rw [if_neg (fun e => hcn e.symm)]
              | two => rfl
          | miss m => simp only [advance, put]; rw [if_neg (fun e => hcn e.symm)]
          | fin m b g => rfl
        simp only [hsame]
        rw [← ht]
        omega

theorem inv_run {N : Nodes A} (is : List Nat) : ∀ {σ : St A}, Inv N σ → Inv N (run N σ is) := by
  induction is with
  | nil => intro σ h; exact h
  | cons i is ih => intro σ h; exact ih (inv_step h i)

/-- C96: whatever the schedule, every call is given what the text of the node means. -/
theorem C96_value_partial (N : Nodes A) (ns : List Nat) (is : List Nat) (n : Nat) (a : A) (g : Bool)
    (h : .fin n a g ∈ (run N (St.init ns) is).calls) : a = N.value n :=
  (inv_run is (inv_init N ns)).calls _ h n a g rfl

/-- C96: no more than two steps of its own end a call, whatever other goroutines do in between. -/
theorem C96_ends (N : Nodes A) (σ : St A) (is : List Nat) (i : Nat) (hi : i < σ.calls.length)
    (h : 2 ≤ is.count i) : ∃ n a g, (run N σ is).calls[i]? = some (.fin n a g) := by
  have hlen : ∀ (σ : St A) j, (step N σ j).calls.length = σ.calls.length := by
    intro σ j; unfold step; split <;> simp
  have hother : ∀ (σ : St A) j, j ≠ i → (step N σ j).calls[i]? = σ.calls[i]? := by
    intro σ j hj; unfold step; split
    · rfl
    · simp [List.getElem?_set, hj]
  have hself : ∀ (σ : St A) c, σ.calls[i]? = some c →
      (step N σ i).calls[i]? = some (advance N σ.cell c).2 := by
    intro σ c hc
    unfold step
    rw [hc]
    have : i < σ.calls.length := (List.getElem?_eq_some_iff.mp hc).1
    simp [List.getElem?_set, this]
  have stay : ∀ (is : List Nat) (σ : St A), (∃ n a g, σ.calls[i]? = some (.fin n a g)) →
      ∃ n a g, (run N σ is).calls[i]? = some (.fin n a g) := by
    intro is
    induction is with
    | nil => intro σ h; exact h
    | cons j is ih =>
      rintro σ ⟨n, a, g, h⟩
      apply ih
      by_cases hj : j = i
      · exact ⟨n, a, g, by rw [hj, hself σ _ h]; rfl⟩
      · exact ⟨n, a, g, by rw [hother σ j hj]; exact h⟩
  have one : ∀ (is : List Nat) (σ : St A), 1 ≤ is.count i →
      ((∃ n, σ.calls[i]? = some (.miss n)) ∨ (∃ n a g, σ.calls[i]? = some (.fin n a g))) →
      ∃ n a g, (run N σ is).calls[i]? = some (.fin n a g) := by
    intro is
    induction is with
    | nil => intro σ h; simp at h
    | cons j is ih =>
      intro σ h hc
      by_cases hj : j = i
      · apply stay is
        rcases hc with ⟨n, hc⟩ | ⟨n, a, g, hc⟩
        · exact ⟨_, _, _, by rw [hj, hself σ _ hc]; rfl⟩
        · exact ⟨_, _, _, by rw [hj, hself σ _ hc]; rfl⟩
      · refine ih _ (by simpa [List.count_cons, hj] using h) ?_
        rw [hother σ j hj]
        exact hc
  induction is generalizing σ with
  | nil => simp at h
  | cons j is ih =>
    by_cases hj : j = i
    · subst hj
      have hc : σ.calls[j]? = some σ.calls[j] := List.getElem?_eq_getElem hi
      have h1 : 1 ≤ is.count j := by simpa [List.count_cons] using h
      apply one is _ h1
      rw [hself σ _ hc]
      cases hx : σ.calls[j] with
      | start n =>
        simp only [advance]
        cases σ.cell n with
        | some a => exact Or.inr ⟨_, _, _, rfl⟩
        | none =>
          cases N.kind n with
          | one => exact Or.inr ⟨_, _, _, rfl⟩
          | two => exact Or.inl ⟨_, rfl⟩
      | miss n => exact Or.inr ⟨_, _, _, rfl⟩
      | fin n a g => exact Or.inr ⟨_, _, _, rfl⟩
    · exact ih (step N σ j) (by rw [hlen]; exact hi) (by simpa [List.count_cons, hj] using h)

/-- C96: of all evaluations of `-x` exactly one is told to negate, whatever the schedule. -/
theorem C96_minus_once (N : Nodes A) (ns : List Nat) (is : List Nat) (n : Nat) (hk : N.kind n = .one)
    (hm : N.minus n = true)
    (hsome : ∃ a g, .fin n a g ∈ (run N (St.init ns) is).calls) :
    count PC.told n (run N (St.init ns) is).calls = 1 := by
  have h := inv_run is (inv_init N ns)
  obtain ⟨a, g, hf⟩ := hsome
  rw [h.told n hk, h.kept _ hf n a g rfl, hm]
  rfl

/-- C96: which one it is depends on the schedule: each of two goroutines that evaluate the same `-x` may be the one. -/
theorem C96_minus_refuted (a : A) :
    let N : Nodes A := ⟨fun _ => .one, fun _ => a, fun _ => true⟩
    (run N (St.init [0, 0]) [0, 1]).calls = [.fin 0 a true, .fin 0 a false] ∧
      (run N (St.init [0, 0]) [1, 0]).calls = [.fin 0 a false, .fin 0 a true] := by
  constructor <;> rfl

/-- Calls on nodes of both kinds that finish. -/
example : (run (A := Nat) ⟨fun n => if n = 1 then .two else .one, fun n => n + 5, fun n => decide (n = 0)⟩
    (St.init [0, 1, 1, 0]) [1, 2, 0, 2, 1, 3]).calls =
      [.fin 0 5 true, .fin 1 6 false, .fin 1 6 false, .fin 0 5 false] := by decide

end Vfilter.NodeCache
