import Verif.Props.Conc
/-!
# C30, C39 (streams): the grouper goroutine over all schedules

The rows of a GROUP BY as they come out of the output channel, and what cancelling does.
-/

set_option linter.all false

namespace Vfilter

variable {R K O : Type} [DecidableEq K]

/-- The start of the grouper. -/
def grpInit (rows : List R) : GrpSt R K O := ⟨rows, .filling [], [], false⟩

/-- The keys of the accepted rows in the order of their first appearance. -/
def keysOf (key : R → Option K) : List R → List K
  | [] => []
  | r :: rs =>
    match key r with
    | none => keysOf key rs
    | some k => k :: (keysOf key rs).filter (· ≠ k)

/-- What GROUP BY has to deliver: one row per key, made of exactly the rows with that key. -/
def grouped (key : R → Option K) (row : List R → O) (rows : List R) : List O :=
  (keysOf key rows).map fun k => row (rows.filter fun r => key r = some k)

theorem keysOf_snoc (key : R → Option K) (r : R) : ∀ rows : List R,
    keysOf key (rows ++ [r]) = match key r with
      | none => keysOf key rows
      | some k => if k ∈ keysOf key rows then keysOf key rows else keysOf key rows ++ [k]
  | [] => by cases h : key r <;> simp [keysOf, h]
  | x :: rows => by
    have ih := keysOf_snoc key r rows
    cases hr : key r with
    | none =>
      simp only [hr] at ih
      simp only [List.cons_append, keysOf, ih]
    | some k =>
      simp only [hr] at ih
      cases hx : key x with
      | none => simp only [List.cons_append, keysOf, hx, ih]
      | some y =>
        simp only [List.cons_append, keysOf, hx, ih]
        by_cases hky : k = y
        · subst hky
          by_cases hm : k ∈ keysOf key rows <;> simp [hm, List.filter_append]
        · by_cases hm : k ∈ keysOf key rows
          · simp [hm, hky]
          · simp [hm, hky, List.filter_append]

theorem keysOf_mem (key : R → Option K) (k : K) : ∀ rows : List R,
    k ∈ keysOf key rows ↔ ∃ r ∈ rows, key r = some k
  | [] => by simp [keysOf]
  | x :: rows => by
    have ih := keysOf_mem key k rows
    cases hx : key x with
    | none => simp [keysOf, hx, ih]
    | some y =>
      by_cases hy : k = y
      · subst hy; simp [keysOf, hx]
      · simp [keysOf, hx, ih, hy, Ne.symm hy]

theorem keysOf_nodup (key : R → Option K) : ∀ rows : List R, (keysOf key rows).Nodup
  | [] => by simp [keysOf]
  | x :: rows => by
    have ih := keysOf_nodup key rows
    cases hx : key x with
    | none => simpa [keysOf, hx] using ih
    | some y => simp [keysOf, hx, ih.filter]

theorem addBin_map (k : K) (r : R) (g : K → List R) : ∀ ks : List K, ks.Nodup →
    addBin k r (ks.map fun x => (x, g x)) =
      if k ∈ ks then ks.map fun x => (x, if x = k then g x ++ [r] else g x)
      else (ks.map fun x => (x, g x)) ++ [(k, [r])]
  | [], _ => by simp [addBin]
  | x :: ks, h => by
    have ih := addBin_map k r g ks (List.nodup_cons.1 h).2
    by_cases hx : x = k
    · subst hx
      have hn := (List.nodup_cons.1 h).1
      simp only [List.map_cons, addBin, if_true, List.mem_cons, true_or]
      congr 1
      refine List.map_congr_left fun y hy => ?_
      rw [if_neg (fun e : y = x => hn (e ▸ hy))]
    · simp only [List.map_cons, addBin, hx, if_false, ih, List.mem_cons, Ne.symm hx, false_or]
      split <;> rfl

/-- The bins after the rows `rows`. -/
def binsOf (key : R → Option K) (rows : List R) : List (K × List R) :=
  (keysOf key rows).map fun k => (k, rows.filter fun r => key r = some k)

theorem binsOf_snoc (key : R → Option K) (r : R) (rows : List R) :
    binsOf key (rows ++ [r]) = match key r with
      | none => binsOf key rows
      | some k => addBin k r (binsOf key rows) := by
  unfold binsOf
  rw [keysOf_snoc]
  cases hr : key r with
  | none => simp [List.filter_append, hr]
  | some k =>
    dsimp only
    rw [addBin_map k r _ _ (keysOf_nodup key rows)]
    by_cases hm : k ∈ keysOf key rows
    · rw [if_pos hm, if_pos hm]
      refine List.map_congr_left fun x _ => ?_
      by_cases hx : x = k
      · subst hx; simp [List.filter_append, hr]
      · simp [List.filter_append, hr, hx, Ne.symm hx]
    · rw [if_neg hm, if_neg hm, List.map_append]
      have hno : rows.filter (fun x => decide (key x = some k)) = [] := by
        rw [List.filter_eq_nil_iff]
        intro x hx hk
        exact hm ((keysOf_mem key k rows).2 ⟨x, hx, by simpa using hk⟩)
      congr 1
      · refine List.map_congr_left fun x hx => ?_
        have : x ≠ k := fun e => hm (e ▸ hx)
        simp [List.filter_append, hr, Ne.symm this]
      · simp [List.filter_append, hr, hno]

/-- Whatever happens, cancelled or not: the bins are those of a part of the input read so far, and the
output with what is still to be sent is what GROUP BY delivers for that part. -/
theorem grp_inv (key : R → Option K) (row : List R → O) (rows : List R) (s : GrpSt R K O)
    (h : Steps (GrpStep key row) (grpInit rows) s) :
    ∃ got, got <+: rows ∧ (s.cancelled = false → got ++ s.input = rows) ∧
      (match s.pc with
       | .filling bins => bins = binsOf key got ∧ s.out = [] ∧ got ++ s.input <+: rows
       | .dumping rest => s.out ++ rest = grouped key row got ∧ s.input = []
       | .closed => s.out <+: grouped key row got ∧ s.input = [] ∧ (s.cancelled = false → s.out = grouped key row got)) := by
  refine Steps.inv (I := fun s : GrpSt R K O => ∃ got, got <+: rows ∧ (s.cancelled = false → got ++ s.input = rows) ∧
      (match s.pc with
       | .filling bins => bins = binsOf key got ∧ s.out = [] ∧ got ++ s.input <+: rows
       | .dumping rest => s.out ++ rest = grouped key row got ∧ s.input = []
       | .closed => s.out <+: grouped key row got ∧ s.input = [] ∧ (s.cancelled = false → s.out = grouped key row got)))
    ?_ h ?_
  · rintro b s t ⟨got, hp, hc, hi⟩ hst
    cases hst with
    | @put r rs k bins out c hk =>
      obtain ⟨rfl, hout, hg⟩ := hi
      have e : got ++ [r] ++ rs = got ++ r :: rs := by simp
      refine ⟨got ++ [r], ?_, fun h => by rw [e]; exact hc h, ?_, hout, by rw [e]; exact hg⟩
      · exact List.IsPrefix.trans ⟨rs, e⟩ hg
      · rw [binsOf_snoc, hk]
    | @reject r rs bins out c hk =>
      obtain ⟨rfl, hout, hg⟩ := hi
      have e : got ++ [r] ++ rs = got ++ r :: rs := by simp
      refine ⟨got ++ [r], ?_, fun h => by rw [e]; exact hc h, ?_, hout, by rw [e]; exact hg⟩
      · exact List.IsPrefix.trans ⟨rs, e⟩ hg
      · rw [binsOf_snoc, hk]
    | inputClosed =>
      obtain ⟨rfl, hout, hg⟩ := hi
      refine ⟨got, hp, hc, ?_, rfl⟩
      simp only at hout
      subst hout
      simp [binsOf, grouped]
    | dump =>
      obtain ⟨h1, h2⟩ := hi
      exact ⟨got, hp, hc, by rw [← h1]; simp, h2⟩
    | @dumpCancel rs o rest out =>
      obtain ⟨h1, h2⟩ := hi
      exact ⟨got, hp, hc, ⟨o :: rest, h1⟩, h2, by simp⟩
    | dumpEnd =>
      obtain ⟨h1, h2⟩ := hi
      simp only [List.append_nil] at h1
      exact ⟨got, hp, hc, by rw [← h1]; exact List.prefix_rfl, h2, fun _ => h1⟩
    | @inputEnds r rs pc out =>
      cases pc with
      | filling bins =>
        obtain ⟨h1, h2, h3⟩ := hi
        exact ⟨got, hp, by simp, h1, h2, by simpa using hp⟩
      | dumping rest => exact absurd hi.2 (by simp)
      | closed => exact absurd hi.2.1 (by simp)
    | @cancel rs pc out =>
      cases pc with
      | filling bins => exact ⟨got, hp, by simp, hi⟩
      | dumping rest => exact ⟨got, hp, by simp, hi⟩
      | closed => exact ⟨got, hp, by simp, hi.1, hi.2.1, by simp⟩
  · exact ⟨[], List.nil_prefix, fun _ => rfl, by simp [binsOf, keysOf], rfl, by simp [grpInit]⟩

/-- C30 on the output channel: without cancellation the output is a prefix of, and at the end exactly, one
row per key in the order of first appearance, made of exactly the rows with that key. -/
theorem C30_stream (key : R → Option K) (row : List R → O) (rows : List R) (s : GrpSt R K O)
    (h : Steps (GrpStep key row) (grpInit rows) s) (hc : s.cancelled = false) :
    s.out <+: grouped key row rows ∧ (s.pc = .closed → s.out = grouped key row rows) := by
  obtain ⟨got, hp, hg, hi⟩ := grp_inv key row rows s h
  have hg := hg hc
  cases hs : s.pc with
  | filling bins =>
    simp only [hs] at hi
    exact ⟨by rw [hi.2.1]; exact List.nil_prefix, by simp⟩
  | dumping rest =>
    simp only [hs] at hi
    rw [hi.2, List.append_nil] at hg
    subst hg
    exact ⟨⟨rest, hi.1⟩, by simp⟩
  | closed =>
    simp only [hs] at hi
    rw [hi.2.1, List.append_nil] at hg
    subst hg
    exact ⟨hi.1, fun _ => hi.2.2 hc⟩

/-- Sizes for the termination of GROUP BY. -/
def grpMu (s : GrpSt R K O) : Nat :=
  2 * s.input.length +
  (match s.pc with
   | .filling bins => bins.length + 2
   | .dumping rest => rest.length + 1
   | .closed => 0)

theorem addBin_length (k : K) (r : R) : ∀ bins : List (K × List R), (addBin k r bins).length ≤ bins.length + 1
  | [] => by simp [addBin]
  | b :: bs => by
    have := addBin_length k r bs
    unfold addBin
    split <;> simp <;> omega

theorem grpMu_lt (key : R → Option K) (row : List R → O) {b : By} {s t : GrpSt R K O}
    (h : GrpStep key row b s t) (hb : b ≠ .env) : grpMu t < grpMu s := by
  cases h with
  | @put r rs k bins out c hk =>
    have := addBin_length k r bins
    simp only [grpMu, List.length_cons]; omega
  | cancel => exact absurd rfl hb
  | _ => simp [grpMu] <;> omega

/-- Without cancellation GROUP BY ends if the output is read. -/
theorem C30_completes (key : R → Option K) (row : List R → O) (s : GrpSt R K O) (hc : s.cancelled = false) :
    Inevitable Read (fun b s t => GrpStep key row b s t ∧ t.cancelled = false) (fun s => s.pc = .closed) s := by
  refine Inevitable.measure (I := fun s => s.cancelled = false) grpMu ?_ ?_ ?_ hc
  · intro b s t hI h; exact h.2
  · rintro b s t hI ⟨h, hc⟩
    apply grpMu_lt key row h
    rintro rfl
    cases h; simp at hc
  · intro s hI hP
    obtain ⟨inp, pc, out, c⟩ := s
    simp only at hI hP
    subst hI
    cases pc with
    | filling bins =>
      cases inp with
      | nil => exact ⟨_, _, .inl rfl, .inputClosed, rfl⟩
      | cons r rs =>
        cases hk : key r with
        | none => exact ⟨_, _, .inr (.inl rfl), .reject hk, rfl⟩
        | some k => exact ⟨_, _, .inr (.inl rfl), .put hk, rfl⟩
    | dumping rest =>
      cases rest with
      | nil => exact ⟨_, _, .inl rfl, .dumpEnd, rfl⟩
      | cons o rest => exact ⟨_, _, .inr (.inr rfl), .dump, rfl⟩
    | closed => exact absurd rfl hP

/-- C39 for GROUP BY: after cancellation the goroutine ends and the output closes on every schedule, even
if nobody reads it.  The grouper itself never looks at the context before its input is closed. -/
theorem C39_group_ends (key : R → Option K) (row : List R → O) (s : GrpSt R K O) (hc : s.cancelled = true) :
    Inevitable Unread (GrpStep key row) (fun s => s.pc = .closed) s := by
  refine Inevitable.measure (I := fun s => s.cancelled = true) grpMu ?_ ?_ ?_ hc
  · intro b s t hI h; cases h <;> simp_all
  · intro b s t hI h
    apply grpMu_lt key row h
    rintro rfl
    cases h; simp at hI
  · intro s hI hP
    obtain ⟨inp, pc, out, c⟩ := s
    simp only at hI hP
    subst hI
    cases pc with
    | filling bins =>
      cases inp with
      | nil => exact ⟨_, _, .inl rfl, .inputClosed⟩
      | cons r rs => exact ⟨_, _, .inr rfl, .inputEnds⟩
    | dumping rest =>
      cases rest with
      | nil => exact ⟨_, _, .inl rfl, .dumpEnd⟩
      | cons o rest => exact ⟨_, _, .inl rfl, .dumpCancel⟩
    | closed => exact absurd rfl hP

/-- C39 for GROUP BY: whatever was delivered, cancelled or not, is a prefix of the groups of a prefix of
the source rows. -/
theorem C39_group_rows (key : R → Option K) (row : List R → O) (rows : List R) (s : GrpSt R K O)
    (h : Steps (GrpStep key row) (grpInit rows) s) :
    ∃ got, got <+: rows ∧ s.out <+: grouped key row got := by
  obtain ⟨got, hp, -, hi⟩ := grp_inv key row rows s h
  refine ⟨got, hp, ?_⟩
  cases hs : s.pc with
  | filling bins => simp only [hs] at hi; rw [hi.2.1]; exact List.nil_prefix
  | dumping rest => simp only [hs] at hi; exact ⟨rest, hi.1⟩
  | closed => simp only [hs] at hi; exact hi.1

/-- C39 refuted for GROUP BY, "a prefix of what the uncancelled query would deliver": the groups of the rows
read so far are delivered, if the reader is as fast as the cancellation.  Here the only group has two
rows, and a count of one is delivered. -/
theorem C39_group_prefix_refuted :
    ∃ s : GrpSt Nat Nat Nat, Steps (GrpStep (fun _ => some 0) List.length) (grpInit [7, 8]) s ∧ s.out = [1] ∧
      grouped (fun _ : Nat => some 0) List.length [7, 8] = [2] :=
  ⟨⟨[], .dumping [], [1], true⟩,
    .tail (.tail (.tail (.tail (.tail .refl (.put rfl)) .cancel) .inputEnds) .inputClosed) .dump, rfl, by decide⟩

example : ∃ s : GrpSt Nat Nat (List Nat),
    Steps (GrpStep (fun n => if n = 9 then none else some (n % 2)) id) (grpInit [3, 9, 4, 5]) s ∧
      s.pc = .closed ∧ s.cancelled = false ∧ s.out = [[3, 5], [4]] :=
  ⟨⟨[], .closed, [[3, 5], [4]], false⟩,
    .tail (.tail (.tail (.tail (.tail (.tail (.tail (.tail .refl (.put rfl)) (.reject rfl)) (.put rfl)) (.put rfl))
      .inputClosed) .dump) .dump) .dumpEnd, rfl, rfl, rfl⟩

end Vfilter
