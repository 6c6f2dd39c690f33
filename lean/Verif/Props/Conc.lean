import Verif.Conc
import Mathlib.Data.List.Basic
import Mathlib.Data.List.Sublists

/-!
# C25, C26, C32, C36, C39, C43, C58 (streams): operators as goroutines, over all schedules

`Inevitable live step P s`: on every schedule from `s` a state with `P` is reached, and this never
has to wait for anything but steps of the parties in `live`.  `Stuck`: nothing can ever happen.
-/

set_option linter.all false

namespace Vfilter

inductive Inevitable {σ : Type} (live : By → Prop) (step : By → σ → σ → Prop) (P : σ → Prop) : σ → Prop where
  | now {s} : P s → Inevitable live step P s
  | later {s} : (∃ b t, live b ∧ step b s t) → (∀ b t, step b s t → Inevitable live step P t) →
      Inevitable live step P s

/-- The operator's own goroutines and its input make progress; the reader of the output need not. -/
def Unread : By → Prop := fun b => b = .proc ∨ b = .input

/-- As above, and the output is read. -/
def Read : By → Prop := fun b => b = .proc ∨ b = .input ∨ b = .consumer

def Stuck {σ : Type} (step : By → σ → σ → Prop) (s : σ) : Prop := ∀ b t, ¬ step b s t

theorem Steps.inv {σ : Type} {step : By → σ → σ → Prop} {I : σ → Prop}
    (hs : ∀ b s t, I s → step b s t → I t) {s t : σ} (h : Steps step s t) (h0 : I s) : I t := by
  induction h with
  | refl => exact h0
  | tail _ hst ih => exact hs _ _ _ ih hst

theorem Steps.trans {σ : Type} {step : By → σ → σ → Prop} {s t u : σ} (h1 : Steps step s t)
    (h2 : Steps step t u) : Steps step s u := by
  induction h2 with
  | refl => exact h1
  | tail _ hst ih => exact .tail ih hst

theorem Inevitable.measure {σ : Type} {live : By → Prop} {step : By → σ → σ → Prop} {P I : σ → Prop}
    (μ : σ → Nat) (hI : ∀ b s t, I s → step b s t → I t)
    (hμ : ∀ b s t, I s → step b s t → μ t < μ s)
    (hp : ∀ s, I s → ¬ P s → ∃ b t, live b ∧ step b s t) {s : σ} (h0 : I s) :
    Inevitable live step P s := by
  generalize hn : μ s = n
  induction n using Nat.strongRecOn generalizing s with
  | _ n ih =>
    by_cases h : P s
    · exact .now h
    · exact .later (hp s h0 h) (fun b t hst => ih (μ t) (hn ▸ hμ b s t h0 hst) (hI b s t h0 hst) rfl)

/-! ## SELECT ... WHERE -/

/-- The start of the row loop. -/
def selInit {R O : Type} (rows : List R) : SelSt R O := ⟨rows, none, [], false, false⟩

/-- C25: when the row loop ends without cancellation, its output is, in source order, exactly one row
for each accepted source row; while it runs the output is a prefix of that. -/
theorem C25_stream {R O : Type} (f : R → Option O) (rows : List R) (s : SelSt R O)
    (h : Steps (SelStep f) (selInit rows) s) (hc : s.cancelled = false) :
    s.out <+: rows.filterMap f ∧ (s.closed = true → s.out = rows.filterMap f) := by
  have key : s.cancelled = false →
      (s.out ++ s.hold.toList ++ s.input.filterMap f = rows.filterMap f ∧
        (s.closed = true → s.input = [] ∧ s.hold = none)) := by
    refine Steps.inv (I := fun s => s.cancelled = false →
      (s.out ++ s.hold.toList ++ s.input.filterMap f = rows.filterMap f ∧
        (s.closed = true → s.input = [] ∧ s.hold = none))) ?_ h ?_
    · intro b s t hi hst hcc
      cases hst <;> simp_all
    · intro _; simp [selInit]
  obtain ⟨h1, h2⟩ := key hc
  constructor
  · exact ⟨s.hold.toList ++ s.input.filterMap f, by rw [← h1]; simp⟩
  · intro hcl
    obtain ⟨e1, e2⟩ := h2 hcl
    simpa [e1, e2] using h1

/-- Without cancellation the loop always ends if the output is read. -/
theorem C25_completes {R O : Type} (f : R → Option O) (s : SelSt R O) (hc : s.cancelled = false) :
    Inevitable Read (fun b s t => SelStep f b s t ∧ t.cancelled = false) (fun s => s.closed = true) s := by
  refine Inevitable.measure (I := fun s => s.cancelled = false)
    (fun s => 2 * s.input.length + s.hold.toList.length + (if s.closed then 0 else 1)) ?_ ?_ ?_ hc
  · intro b s t _ h; exact h.2
  · rintro b s t hI ⟨h, hc⟩
    cases h <;> simp_all <;> omega
  · intro s hI hP
    obtain ⟨inp, hold, out, c, cl⟩ := s
    simp only at hI hP
    subst hI
    have : cl = false := by simpa using hP
    subst this
    cases hold with
    | some o => exact ⟨_, _, .inr (.inr rfl), .send, rfl⟩
    | none =>
      cases inp with
      | nil => exact ⟨_, _, .inl rfl, .finish, rfl⟩
      | cons r rs =>
        cases hf : f r with
        | some o => exact ⟨_, _, .inr (.inl rfl), .recv hf, rfl⟩
        | none => exact ⟨_, _, .inr (.inl rfl), .reject hf, rfl⟩

example : ∃ s, Steps (SelStep (fun n : Nat => if n % 2 = 0 then some (n * 10) else none)) (selInit [2, 3, 4]) s ∧
    s.closed = true ∧ s.cancelled = false ∧ s.out = [20, 40] := by
  refine ⟨⟨[], none, [20, 40], false, true⟩, ?_, rfl, rfl, rfl⟩
  exact .tail (.tail (.tail (.tail (.tail (.tail .refl (.recv (o := 20) rfl)) .send) (.reject rfl)) (.recv (o := 40) rfl))
    .send) .finish

/-- C39 for SELECT: after cancellation the output closes on every schedule, even if nobody reads it. -/
theorem C39_select_ends {R O : Type} (f : R → Option O) (s : SelSt R O) (hc : s.cancelled = true) :
    Inevitable Unread (SelStep f) (fun s => s.closed = true) s := by
  refine Inevitable.measure (I := fun s => s.cancelled = true)
    (fun s => 2 * s.input.length + s.hold.toList.length + (if s.closed then 0 else 1)) ?_ ?_ ?_ hc
  · intro b s t hI h; cases h <;> simp_all
  · intro b s t hI h
    cases h <;> simp_all <;> omega
  · intro s hI hP
    obtain ⟨inp, hold, out, c, cl⟩ := s
    simp only at hI hP
    subst hI
    have : cl = false := by simpa using hP
    subst this
    cases hold with
    | some o => exact ⟨_, _, .inl rfl, .drop⟩
    | none => exact ⟨_, _, .inl rfl, .abort⟩

/-- C39 for SELECT: whatever was delivered, cancelled or not, is in order a part of the full result. -/
theorem C39_select_rows {R O : Type} (f : R → Option O) (rows : List R) (s : SelSt R O)
    (h : Steps (SelStep f) (selInit rows) s) : s.out.Sublist (rows.filterMap f) := by
  have key : (s.out ++ s.hold.toList ++ s.input.filterMap f).Sublist (rows.filterMap f) := by
    refine Steps.inv (I := fun s => (s.out ++ s.hold.toList ++ s.input.filterMap f).Sublist (rows.filterMap f)) ?_ h ?_
    · intro b s t hi hst
      cases hst <;> simp_all
      · exact List.Sublist.trans (List.Sublist.append_left (List.sublist_cons_self _ _) _) hi
      · refine List.Sublist.trans ?_ hi
        rw [← List.append_assoc]
        exact List.sublist_append_left _ _
    · simp [selInit]
  exact List.Sublist.trans (by rw [List.append_assoc]; exact List.sublist_append_left _ _) key

/-- C39, "a prefix" refuted: `processSingleRow` gives up one row on cancellation but the row loop may go
on to the next one, so a later row can be delivered although an earlier one was dropped. -/
theorem C39_select_prefix_refuted :
    ¬ ∀ (rows : List Nat) (s : SelSt Nat Nat), Steps (SelStep some) (selInit rows) s →
      s.out <+: rows.filterMap some := by
  intro h
  have := h [1, 2] ⟨[], none, [2], true, false⟩
    (.tail (.tail (.tail (.tail (.tail .refl (.recv (o := 1) rfl)) .cancel) .drop) (.recv (o := 2) rfl)) .send)
  revert this; decide

/-! ## LIMIT -/

def limInit {R : Type} (rows : List R) : LimSt R := ⟨rows, none, 1, [], [], false, false, false⟩

/-- C26, partial: LIMIT n delivers the first `max 1 n` rows of the query without LIMIT (all if there are
fewer), takes no more than these from it, and cancels it; for n >= 1 this is the prefix of
length `min n total`. -/
theorem C26_limit_partial {R : Type} (n : Int) (rows : List R) (s : LimSt R)
    (h : Steps (LimStep n) (limInit rows) s) (hc : s.cancelled = false) :
    s.taken = rows.take s.taken.length ∧ (s.taken.length : Int) ≤ max 1 n ∧
    s.out <+: rows.take (max 1 n).toNat ∧
    (s.closed = true → s.out = rows.take (max 1 n).toNat ∧ s.taken = s.out ∧ s.subCancelled = true) := by
  have key : s.cancelled = false →
      (s.taken ++ s.input = rows ∧ s.taken = s.out ++ s.hold.toList ∧ s.count = s.out.length + 1 ∧
        (s.closed = false → s.out ≠ [] → s.count ≤ n) ∧
        ((s.out.length : Int) ≤ max 1 n) ∧
        (s.closed = true → s.hold = none ∧ s.subCancelled = true ∧
          (s.input = [] ∨ (s.out.length : Int) = max 1 n))) := by
    refine Steps.inv (I := fun s : LimSt R => s.cancelled = false →
      (s.taken ++ s.input = rows ∧ s.taken = s.out ++ s.hold.toList ∧ s.count = s.out.length + 1 ∧
        (s.closed = false → s.out ≠ [] → s.count ≤ n) ∧
        ((s.out.length : Int) ≤ max 1 n) ∧
        (s.closed = true → s.hold = none ∧ s.subCancelled = true ∧
          (s.input = [] ∨ (s.out.length : Int) = max 1 n)))) ?_ h ?_
    · intro b s t hi hst hcc
      cases hst with
      | recv => obtain ⟨a1, a2, a3, a4, a5, a6⟩ := hi hcc; simp_all
      | sendLast hn =>
        obtain ⟨a1, a2, a3, a4, a5, a6⟩ := hi hcc
        simp only at a1 a2 a3 a4 a5 hn
        rename_i r rs n' tk out c sc
        refine ⟨a1, by simpa using a2, by simp; omega, by simp, ?_, ?_⟩
        · rcases eq_or_ne out [] with e | e
          · subst e; simp; omega
          · have := a4 trivial e; simp; omega
        · refine fun _ => ⟨rfl, rfl, .inr ?_⟩
          rcases eq_or_ne out [] with e | e
          · subst e; simp at a3 ⊢; omega
          · have := a4 trivial e
            have : 0 < out.length := List.length_pos_of_ne_nil e
            simp; omega
      | send hn =>
        obtain ⟨a1, a2, a3, a4, a5, a6⟩ := hi hcc
        simp only at a1 a2 a3 a4 a5 hn
        refine ⟨a1, by simpa using a2, by simp; omega, fun _ _ => by simp; omega, ?_, by simp⟩
        simp; omega
      | abort => simp at hcc
      | finish => obtain ⟨a1, a2, a3, a4, a5, a6⟩ := hi hcc; simp_all
      | inputEnds => simp at hcc
      | cancel => simp at hcc
    · intro _; simp [limInit]; omega
  obtain ⟨a1, a2, a3, a4, a5, a6⟩ := key hc
  have htl : (s.taken.length : Int) ≤ max 1 n := by
    cases hh : s.hold with
    | none => rw [a2, hh]; simpa using a5
    | some r =>
      have hcl : s.closed = false := by
        cases hcl : s.closed with
        | false => rfl
        | true => have := (a6 hcl).1; simp_all
      rw [a2, hh]
      rcases eq_or_ne s.out [] with e | e
      · simp [e]; omega
      · have := a4 hcl e; simp; omega
  have htk : s.taken = rows.take s.taken.length := by rw [← a1]; simp
  refine ⟨htk, htl, ?_, ?_⟩
  · have : s.taken <+: rows.take (max 1 n).toNat := by
      rw [htk]
      exact List.take_prefix_take_left (by omega)
    exact List.IsPrefix.trans ⟨s.hold.toList, a2.symm⟩ this
  · intro hcl
    obtain ⟨b1, b2, b3⟩ := a6 hcl
    have e : s.taken = s.out := by simpa [b1] using a2
    refine ⟨?_, e, b2⟩
    rcases b3 with b3 | b3
    · have : rows = s.out := by rw [← a1, b3, e]; simp
      rw [List.take_of_length_le (by rw [this]; omega), this]
    · rw [← e, htk]; congr 1; rw [e]; omega

/-- The prefix of the property, for n >= 1. -/
theorem C26_positive {R : Type} (n : Nat) (hn : 1 ≤ n) (rows : List R) (s : LimSt R)
    (h : Steps (LimStep n) (limInit rows) s) (hc : s.cancelled = false) (hcl : s.closed = true) :
    s.out = rows.take (min n rows.length) := by
  have := ((C26_limit_partial n rows s h hc).2.2.2 hcl).1
  rw [this]
  rw [show (max 1 (n : Int)).toNat = n by omega, ← List.take_eq_take_min]

/-- C26 refuted for n = 0: one row is delivered. -/
theorem C26_limit_zero_refuted :
    ¬ ∀ (n : Nat) (rows : List Nat) (s : LimSt Nat), Steps (LimStep n) (limInit rows) s →
      s.cancelled = false → s.closed = true → s.out = rows.take (min n rows.length) := by
  intro h
  have := h 0 [7, 8] ⟨[8], none, 2, [7], [7], false, true, true⟩
    (.tail (.tail .refl .recv) (.sendLast (by decide))) rfl rfl
  revert this; decide

/-- Without cancellation LIMIT always ends if its output is read. -/
theorem C26_completes {R : Type} (n : Int) (s : LimSt R) (hc : s.cancelled = false) :
    Inevitable Read (fun b s t => LimStep n b s t ∧ t.cancelled = false) (fun s => s.closed = true) s := by
  refine Inevitable.measure (I := fun s => s.cancelled = false)
    (fun s => 2 * s.input.length + s.hold.toList.length + (if s.closed then 0 else 1)) ?_ ?_ ?_ hc
  · intro b s t _ h; exact h.2
  · rintro b s t hI ⟨h, hc⟩
    cases h <;> simp_all <;> omega
  · intro s hI hP
    obtain ⟨inp, hold, k, tk, out, c, sc, cl⟩ := s
    simp only at hI hP
    subst hI
    have : cl = false := by simpa using hP
    subst this
    cases hold with
    | some o =>
      by_cases hk : k + 1 > n
      · exact ⟨_, _, .inr (.inr rfl), .sendLast hk, rfl⟩
      · exact ⟨_, _, .inr (.inr rfl), .send hk, rfl⟩
    | none =>
      cases inp with
      | nil => exact ⟨_, _, .inl rfl, .finish, rfl⟩
      | cons r rs => exact ⟨_, _, .inr (.inl rfl), .recv, rfl⟩

/-- C39 for LIMIT. -/
theorem C39_limit_ends {R : Type} (n : Int) (s : LimSt R) (hc : s.cancelled = true) :
    Inevitable Unread (LimStep n) (fun s => s.closed = true) s := by
  refine Inevitable.measure (I := fun s => s.cancelled = true)
    (fun s => 2 * s.input.length + s.hold.toList.length + (if s.closed then 0 else 1)) ?_ ?_ ?_ hc
  · intro b s t hI h; cases h <;> simp_all
  · intro b s t hI h
    cases h <;> simp_all <;> omega
  · intro s hI hP
    obtain ⟨inp, hold, k, tk, out, c, sc, cl⟩ := s
    simp only at hI hP
    subst hI
    have : cl = false := by simpa using hP
    subst this
    cases hold with
    | some o => exact ⟨_, _, .inl rfl, .abort⟩
    | none =>
      cases inp with
      | nil => exact ⟨_, _, .inl rfl, .finish⟩
      | cons r rs => exact ⟨_, _, .inr rfl, .recv⟩

/-- C39 for LIMIT: the delivered rows are a prefix of the rows taken, cancelled or not. -/
theorem C39_limit_rows {R : Type} (n : Int) (rows : List R) (s : LimSt R)
    (h : Steps (LimStep n) (limInit rows) s) : s.out <+: rows := by
  have key : s.out <+: s.taken ∧ (s.closed = false → s.out ++ s.hold.toList = s.taken) ∧ s.taken <+: rows ∧
      (s.input = [] ∨ s.taken ++ s.input = rows) := by
    refine Steps.inv (I := fun s : LimSt R => s.out <+: s.taken ∧
      (s.closed = false → s.out ++ s.hold.toList = s.taken) ∧ s.taken <+: rows ∧
      (s.input = [] ∨ s.taken ++ s.input = rows)) ?_ h ?_
    · intro b s t hi hst
      cases hst with
      | recv =>
        rename_i r rs k tk out c sc
        obtain ⟨a1, a2, a3, a4⟩ := hi
        have a4 : tk ++ r :: rs = rows := by simpa using a4
        have a2 : out = tk := by simpa using a2
        subst a2
        exact ⟨List.prefix_append _ _, fun _ => rfl, ⟨rs, by simpa using a4⟩, .inr (by simpa using a4)⟩
      | sendLast =>
        obtain ⟨a1, a2, a3, a4⟩ := hi
        have a2 := a2 rfl
        simp only [Option.toList_some] at a2
        exact ⟨by simp [a2], by simp, a3, a4⟩
      | send =>
        obtain ⟨a1, a2, a3, a4⟩ := hi
        have a2 := a2 rfl
        simp only [Option.toList_some] at a2
        exact ⟨by simp [a2], by simp [a2], a3, a4⟩
      | abort => exact ⟨hi.1, by simp, hi.2.2⟩
      | finish => exact ⟨hi.1, by simp, hi.2.2⟩
      | inputEnds => exact ⟨hi.1, hi.2.1, hi.2.2.1, .inl rfl⟩
      | cancel => exact hi
    · simp [limInit]
  exact key.1.trans key.2.2.1

/-! ## ORDER BY -/

def ordInit {R : Type} (rows : List R) : OrdSt R := ⟨rows, .reading, .collecting [], [], false⟩

/-- The sorted rows delivered without cancellation. -/
theorem C32_stream {R : Type} (srt : List R → List R) (rows : List R) (s : OrdSt R)
    (h : Steps (OrdStep srt) (ordInit rows) s) (hc : s.cancelled = false) :
    s.out <+: srt rows ∧ (s.sorter = .closed → s.out = srt rows) := by
  have key : s.cancelled = false →
      (match s.sorter with
       | .collecting items => s.out = [] ∧ items ++ (match s.feeder with | .sending r => [r] | _ => []) ++ s.input = rows
            ∧ (s.feeder = .closed → s.input = [])
       | .dumping rest => s.out ++ rest = srt rows
       | .closed => s.out = srt rows) := by
    refine Steps.inv (I := fun s : OrdSt R => s.cancelled = false →
      (match s.sorter with
       | .collecting items => s.out = [] ∧ items ++ (match s.feeder with | .sending r => [r] | _ => []) ++ s.input = rows
            ∧ (s.feeder = .closed → s.input = [])
       | .dumping rest => s.out ++ rest = srt rows
       | .closed => s.out = srt rows)) ?_ h ?_
    · intro b s t hi hst hcc
      cases hst with
      | recv => rename_i r rs s out c; cases s <;> simp_all
      | feederEnd => rename_i s out c; cases s <;> simp_all
      | collect => simp_all
      | inputClosed => simp_all
      | sortCancel => simp at hcc
      | dump => simp_all
      | dumpCancel => simp at hcc
      | dumpEnd => simp_all
      | inputEnds => simp at hcc
      | cancel => simp at hcc
    · intro _; simp [ordInit]
  have key := key hc
  cases hs : s.sorter with
  | collecting items => simp [hs] at key ⊢; simp [key.1]
  | dumping rest => simp [hs] at key ⊢; exact ⟨rest, key⟩
  | closed => simp [hs] at key ⊢; simp [key]

/-- Sizes for the termination of ORDER BY. -/
def ordMu {R : Type} (s : OrdSt R) : Nat :=
  3 * s.input.length + (match s.feeder with | .reading => 1 | .sending _ => 3 | .closed => 0) +
  (match s.sorter with
   | .collecting items => items.length + 2
   | .dumping rest => rest.length + 1
   | .closed => 0)

/-- A measure that every step decreases except cancelling. -/
theorem ordMu_lt {R : Type} (srt : List R → List R) (hl : ∀ l, (srt l).length = l.length) {b : By}
    {s t : OrdSt R} (h : OrdStep srt b s t) (hb : b ≠ .env) : ordMu t < ordMu s := by
  cases h <;> simp_all [ordMu] <;> omega

/-- Without cancellation ORDER BY ends, with no goroutine left, if the output is read. -/
theorem C32_completes {R : Type} (srt : List R → List R) (hl : ∀ l, (srt l).length = l.length)
    (s : OrdSt R) (rows : List R) (h : Steps (OrdStep srt) (ordInit rows) s) (hc : s.cancelled = false) :
    Inevitable Read (fun b s t => OrdStep srt b s t ∧ t.cancelled = false)
      (fun s => s.sorter = .closed ∧ s.feeder = .closed) s := by
  have hinv : ∀ s : OrdSt R, Steps (OrdStep srt) (ordInit rows) s → s.cancelled = false →
      ((∃ items, s.sorter = .collecting items) ∨ s.feeder = .closed) := by
    intro s h
    refine Steps.inv (I := fun s : OrdSt R => s.cancelled = false →
      ((∃ items, s.sorter = .collecting items) ∨ s.feeder = .closed)) ?_ h ?_
    · intro b s t hi hst hcc
      cases hst <;> simp_all
    · intro _; exact .inl ⟨[], rfl⟩
  refine Inevitable.measure (I := fun s => s.cancelled = false ∧ Steps (OrdStep srt) (ordInit rows) s)
    ordMu ?_ ?_ ?_ ⟨hc, h⟩
  · intro b s t hI h; exact ⟨h.2, .tail hI.2 h.1⟩
  · rintro b s t hI ⟨h, hc⟩
    apply ordMu_lt srt hl h
    rintro rfl
    cases h; simp at hc
  · intro s hI hP
    have hi := hinv s hI.2 hI.1
    obtain ⟨inp, fe, so, out, c⟩ := s
    obtain ⟨rfl, hst⟩ := hI
    cases so with
    | collecting items =>
      cases fe with
      | reading =>
        cases inp with
        | nil => exact ⟨_, _, .inl rfl, .feederEnd, rfl⟩
        | cons r rs => exact ⟨_, _, .inr (.inl rfl), .recv, rfl⟩
      | sending r => exact ⟨_, _, .inl rfl, .collect, rfl⟩
      | closed => exact ⟨_, _, .inl rfl, .inputClosed, rfl⟩
    | dumping rest =>
      cases rest with
      | nil => exact ⟨_, _, .inl rfl, .dumpEnd, rfl⟩
      | cons r rest => exact ⟨_, _, .inr (.inr rfl), .dump, rfl⟩
    | closed =>
      exfalso
      rcases hi with ⟨_, h⟩ | h
      · simp at h
      · exact hP ⟨rfl, h⟩

example : ∃ s, Steps (OrdStep List.reverse) (ordInit [1, 2]) s ∧ s.sorter = .closed ∧ s.cancelled = false ∧
    s.out = [2, 1] :=
  ⟨⟨[], .closed, .closed, [2, 1], false⟩,
    .tail (.tail (.tail (.tail (.tail (.tail (.tail (.tail (.tail .refl .recv) .collect) .recv) .collect) .feederEnd)
      .inputClosed) .dump) .dump) .dumpEnd, rfl, rfl, rfl⟩

/-- C39 for ORDER BY: the output closes. -/
theorem C39_orderby_ends {R : Type} (srt : List R → List R) (hl : ∀ l, (srt l).length = l.length)
    (s : OrdSt R) (hc : s.cancelled = true) :
    Inevitable Unread (OrdStep srt) (fun s => s.sorter = .closed) s := by
  refine Inevitable.measure (I := fun s => s.cancelled = true) ordMu ?_ ?_ ?_ hc
  · intro b s t hI h; cases h <;> simp_all
  · intro b s t hI h
    apply ordMu_lt srt hl h
    rintro rfl
    cases h; simp at hI
  · intro s hI hP
    obtain ⟨inp, fe, so, out, c⟩ := s
    simp only at hI hP
    subst hI
    cases so with
    | collecting items => exact ⟨_, _, .inl rfl, .sortCancel⟩
    | dumping rest =>
      cases rest with
      | nil => exact ⟨_, _, .inl rfl, .dumpEnd⟩
      | cons r rest => exact ⟨_, _, .inl rfl, .dumpCancel⟩
    | closed => exact absurd rfl hP

/-- C39 refuted for ORDER BY: the goroutine feeding the sorter sends without looking at the context.  If
the sorter stops on cancellation while a row is being sent, that goroutine is blocked for ever. -/
theorem C39_orderby_leak_refuted :
    ∃ s : OrdSt Nat, Steps (OrdStep id) (ordInit [1]) s ∧ s.cancelled = true ∧
      s.feeder = .sending 1 ∧ Stuck (OrdStep id) s := by
  refine ⟨⟨[], .sending 1, .closed, [], true⟩,
    .tail (.tail (.tail (.tail .refl .recv) .cancel) .sortCancel) .dumpEnd, rfl, rfl, ?_⟩
  intro b t h
  cases h

/-- C39 refuted for ORDER BY, "a prefix of what the uncancelled query would deliver": the rows collected so
far are sorted and delivered, if the reader is as fast as the cancellation. -/
theorem C39_orderby_prefix_refuted :
    ∃ s : OrdSt Nat, Steps (OrdStep (fun l => l.reverse)) (ordInit [1, 2]) s ∧ s.out = [1] ∧
      ¬ s.out <+: [1, 2].reverse := by
  refine ⟨⟨[2], .reading, .dumping [], [1], true⟩,
    .tail (.tail (.tail (.tail (.tail .refl .recv) .collect) .cancel) .sortCancel) .dump, rfl, by decide⟩

/-! ## chain -/

def chainInit {R : Type} (queries : List (List R)) : ChainSt R := ⟨queries, none, none, [], false, false⟩

/-- C36: chain delivers the concatenation of its queries in order. -/
theorem C36_chain {R : Type} (queries : List (List R)) (s : ChainSt R)
    (h : Steps ChainStep (chainInit queries) s) (hc : s.cancelled = false) :
    s.out <+: queries.flatten ∧ (s.closed = true → s.out = queries.flatten) := by
  have key : s.cancelled = false →
      (s.out ++ s.hold.toList ++ s.cur.getD [] ++ s.queries.flatten = queries.flatten ∧
        (s.closed = true → s.hold = none ∧ s.cur = none ∧ s.queries = [])) := by
    refine Steps.inv (I := fun s : ChainSt R => s.cancelled = false →
      (s.out ++ s.hold.toList ++ s.cur.getD [] ++ s.queries.flatten = queries.flatten ∧
        (s.closed = true → s.hold = none ∧ s.cur = none ∧ s.queries = []))) ?_ h ?_
    · intro b s t hi hst hcc
      cases hst <;> simp_all
    · intro _; simp [chainInit]
  obtain ⟨h1, h2⟩ := key hc
  constructor
  · exact ⟨s.hold.toList ++ s.cur.getD [] ++ s.queries.flatten, by rw [← h1]; simp⟩
  · intro hcl
    obtain ⟨e1, e2, e3⟩ := h2 hcl
    simpa [e1, e2, e3] using h1

/-- Sizes for the termination of chain. -/
def chainMu {R : Type} (s : ChainSt R) : Nat :=
  (s.queries.map (fun q => 2 * q.length + 2)).sum + (match s.cur with | none => 0 | some q => 2 * q.length + 1) +
    s.hold.toList.length + (if s.closed then 0 else 1)

theorem chainMu_lt {R : Type} {b : By} {s t : ChainSt R} (h : ChainStep b s t) (hb : b ≠ .env) :
    chainMu t < chainMu s := by
  cases h <;> simp_all [chainMu] <;> omega

/-- Without cancellation chain ends if its output is read. -/
theorem C36_completes {R : Type} (queries : List (List R)) (s : ChainSt R)
    (h : Steps ChainStep (chainInit queries) s) (hc : s.cancelled = false) :
    Inevitable Read (fun b s t => ChainStep b s t ∧ t.cancelled = false) (fun s => s.closed = true) s := by
  refine Inevitable.measure (I := fun s => s.cancelled = false) chainMu ?_ ?_ ?_ hc
  · intro b s t _ h; exact h.2
  · rintro b s t hI ⟨h, hc⟩
    apply chainMu_lt h
    rintro rfl
    cases h; simp at hc
  · intro s hI hP
    obtain ⟨qs, cur, hold, out, c, cl⟩ := s
    simp only at hI hP
    subst hI
    have : cl = false := by simpa using hP
    subst this
    cases hold with
    | some r => exact ⟨_, _, .inr (.inr rfl), .send, rfl⟩
    | none =>
      cases cur with
      | some q =>
        cases q with
        | nil => exact ⟨_, _, .inl rfl, .next, rfl⟩
        | cons r q => exact ⟨_, _, .inr (.inl rfl), .recv, rfl⟩
      | none =>
        cases qs with
        | nil => exact ⟨_, _, .inl rfl, .finish, rfl⟩
        | cons q qs => exact ⟨_, _, .inl rfl, .start, rfl⟩

example : ∃ s, Steps ChainStep (chainInit [[1], [], [2]]) s ∧ s.closed = true ∧ s.cancelled = false ∧ s.out = [1, 2] :=
  ⟨⟨[], none, none, [1, 2], false, true⟩,
    .tail (.tail (.tail (.tail (.tail (.tail (.tail (.tail (.tail (.tail (.tail .refl .start) .recv) .send) .next)
      .start) .next) .start) .recv) .send) .next) .finish, rfl, rfl, rfl⟩

/-- C39 for chain: the output closes. -/
theorem C39_chain_ends {R : Type} (s : ChainSt R) (hc : s.cancelled = true) :
    Inevitable Unread ChainStep (fun s => s.closed = true) s := by
  refine Inevitable.measure (I := fun s => s.cancelled = true) chainMu ?_ ?_ ?_ hc
  · intro b s t hI h; cases h <;> simp_all
  · intro b s t hI h
    apply chainMu_lt h
    rintro rfl
    cases h; simp at hI
  · intro s hI hP
    obtain ⟨qs, cur, hold, out, c, cl⟩ := s
    simp only at hI hP
    subst hI
    have : cl = false := by simpa using hP
    subst this
    cases hold with
    | some r => exact ⟨_, _, .inl rfl, .abort⟩
    | none =>
      cases cur with
      | some q =>
        cases q with
        | nil => exact ⟨_, _, .inl rfl, .next⟩
        | cons r q => exact ⟨_, _, .inr rfl, .recv⟩
      | none =>
        cases qs with
        | nil => exact ⟨_, _, .inl rfl, .finish⟩
        | cons q qs => exact ⟨_, _, .inl rfl, .start⟩

/-- C39 for chain: what was delivered is in order a part of the concatenation. -/
theorem C39_chain_rows {R : Type} (queries : List (List R)) (s : ChainSt R)
    (h : Steps ChainStep (chainInit queries) s) : s.out.Sublist queries.flatten := by
  have key : (s.out ++ s.hold.toList ++ s.cur.getD [] ++ s.queries.flatten).Sublist queries.flatten := by
    refine Steps.inv (I := fun s : ChainSt R =>
      (s.out ++ s.hold.toList ++ s.cur.getD [] ++ s.queries.flatten).Sublist queries.flatten) ?_ h ?_
    · intro b s t hi hst
      cases hst <;> simp_all
      · exact List.Sublist.trans (List.Sublist.append_left (List.sublist_cons_self _ _) _) hi
      · refine List.Sublist.trans ?_ hi
        refine List.Sublist.append_left (List.Sublist.append_left ?_ _) _
        rw [← List.cons_append]
        exact List.sublist_append_right _ _
    · simp [chainInit]
  refine List.Sublist.trans ?_ key
  simp only [List.append_assoc]
  exact List.sublist_append_left _ _

/-- C39, "a prefix" refuted for chain: a query cut short by the cancellation ends like a complete one, and
chain goes on to the next query. -/
theorem C39_chain_prefix_refuted :
    ∃ s : ChainSt Nat, Steps ChainStep (chainInit [[1, 2], [3]]) s ∧ s.out = [1, 3] ∧
      ¬ s.out <+: [[1, 2], [3]].flatten :=
  ⟨⟨[], some [], none, [1, 3], true, false⟩,
    .tail (.tail (.tail (.tail (.tail (.tail (.tail (.tail (.tail .refl .start) .recv) .send) .cancel) .inputEnds) .next)
      .start) .recv) .send, rfl, by decide⟩

/-! ## Response batches -/

def respInit {R : Type} (rows : List R) : RespSt R := ⟨rows, [], 0, [], .loop, false⟩

/-- Rows received but not yet sent. -/
def pendingRow {R : Type} : RespPc R → List R
  | .ship (.add r) => [r]
  | _ => []

/-- C43: at the end the parts hold every row once in order (without cancellation), are numbered 0,1,2,..., none has
more than m rows; a final part is always sent. -/
theorem C43_batches {R : Type} (m : Int) (hm : 1 ≤ m) (rows : List R) (s : RespSt R)
    (h : Steps (RespStep m (fun _ => true)) (respInit rows) s) :
    (s.sent.map Part.part = List.range s.sent.length) ∧
    (∀ p ∈ s.sent, (p.rows.length : Int) ≤ m) ∧
    ((s.sent.map Part.rows).flatten <+: rows) ∧
    (s.pc = .closed → s.sent ≠ []) ∧
    (s.pc = .closed → s.cancelled = false → (s.sent.map Part.rows).flatten = rows) := by
  have key : s.part = s.sent.length ∧ (s.sent.map Part.part = List.range s.sent.length) ∧
      (∀ p ∈ s.sent, (p.rows.length : Int) ≤ m) ∧ ((s.buf.length : Int) ≤ m) ∧
      ((s.sent.map Part.rows).flatten ++ s.buf ++ pendingRow s.pc ++ s.input = rows) ∧
      (s.pc = .closed → s.sent ≠ [] ∧ s.buf = []) ∧
      (s.pc = .closed ∨ s.pc = .ship .final → s.cancelled = false → s.input = []) := by
    refine Steps.inv (I := fun s : RespSt R => s.part = s.sent.length ∧ (s.sent.map Part.part = List.range s.sent.length) ∧
      (∀ p ∈ s.sent, (p.rows.length : Int) ≤ m) ∧ ((s.buf.length : Int) ≤ m) ∧
      ((s.sent.map Part.rows).flatten ++ s.buf ++ pendingRow s.pc ++ s.input = rows) ∧
      (s.pc = .closed → s.sent ≠ [] ∧ s.buf = []) ∧
      (s.pc = .closed ∨ s.pc = .ship .final → s.cancelled = false → s.input = [])) ?_ h ?_
    · intro b s t hi hst
      obtain ⟨a1, a2, a3, a4, a5, a6, a7⟩ := hi
      cases hst with
      | row hl => simp_all [pendingRow]; omega
      | rowFull hl => simp_all [pendingRow]
      | deadline hl => simp_all [pendingRow]
      | rowsEnd => simp_all [pendingRow]
      | abort => simp_all [pendingRow]
      | deliver he =>
        rename_i rs buf p sent c k
        simp only at a1 a2 a3 a4 a5 a7
        subst a1
        have hp : ∀ q ∈ sent ++ [(⟨sent.length, buf⟩ : Part R)], (q.rows.length : Int) ≤ m := by
          intro q hq
          rcases List.mem_append.1 hq with hq | hq
          · exact a3 q hq
          · rw [List.mem_singleton.1 hq]; exact a4
        cases k with
        | add r =>
          refine ⟨by simp [afterShip], by simp [afterShip, a2, List.range_succ], by simpa [afterShip] using hp, by simp [afterShip]; omega,
            by simpa [afterShip, pendingRow] using a5, by simp [afterShip], by simp [afterShip]⟩
        | flush =>
          refine ⟨by simp [afterShip], by simp [afterShip, a2, List.range_succ], by simpa [afterShip] using hp, by simp [afterShip]; omega,
            by simpa [afterShip, pendingRow] using a5, by simp [afterShip], by simp [afterShip]⟩
        | final =>
          refine ⟨by simp [afterShip], by simp [afterShip, a2, List.range_succ], by simpa [afterShip] using hp, by simp [afterShip]; omega,
            by simpa [afterShip, pendingRow] using a5, by simp [afterShip], by simpa [afterShip] using a7⟩
      | encodeFails he => simp at he
      | cancel => simp_all
    · simp [respInit, pendingRow]; omega
  obtain ⟨a1, a2, a3, a4, a5, a6, a7⟩ := key
  refine ⟨a2, a3, ⟨s.buf ++ pendingRow s.pc ++ s.input, by rw [← a5]; simp⟩, fun h => (a6 h).1, fun h hc => ?_⟩
  have e1 := (a6 h).2
  have e2 := a7 (.inl h) hc
  simpa [e1, e2, h, pendingRow] using a5

/-- C43: the stream ends on every schedule of rows and timer if the parts are read. -/
theorem C43_completes {R : Type} (m : Int) (rows : List R) (s : RespSt R)
    (h : Steps (RespStep m (fun _ => true)) (respInit rows) s) (hc : s.cancelled = false) :
    Inevitable Read (fun b s t => RespStep m (fun _ => true) b s t ∧ t.cancelled = false)
      (fun s => s.pc = .closed) s := by
  refine Inevitable.measure (I := fun s => s.cancelled = false)
    (fun s => 4 * s.input.length + (match s.pc with
      | .loop => if s.buf.length = 0 then 2 else 4
      | .ship .flush => 3 | .ship (.add _) => 5 | .ship .final => 1 | .closed => 0)) ?_ ?_ ?_ hc
  · intro b s t _ h; exact h.2
  · rintro b s t hI ⟨h, hc⟩
    cases h with
    | row => simp; split <;> omega
    | rowFull => simp; split <;> omega
    | deadline hb => simp; split <;> [(simp_all); omega]
    | rowsEnd => simp; split <;> omega
    | abort => simp; split <;> omega
    | @deliver rs buf p sent c k he => cases k <;> simp [afterShip]
    | encodeFails he => simp at he
    | cancel => simp at hc
  · intro s hI hP
    obtain ⟨inp, buf, p, sent, pc, c⟩ := s
    simp only at hI hP
    subst hI
    cases pc with
    | closed => exact absurd rfl hP
    | ship k => exact ⟨_, _, .inr (.inr rfl), .deliver rfl, by cases k <;> rfl⟩
    | loop =>
      cases inp with
      | nil => exact ⟨_, _, .inl rfl, .rowsEnd, rfl⟩
      | cons r rs =>
        by_cases hb : (buf.length : Int) ≥ m
        · exact ⟨_, _, .inr (.inl rfl), .rowFull hb, rfl⟩
        · exact ⟨_, _, .inr (.inl rfl), .row hb, rfl⟩

/-- With an encoder that may fail no row is lost or sent twice either: the unsent rows stay in the buffer.  Part
numbers are still consecutive, but a part may then have more than m rows. -/
theorem C43_failing_encoder {R : Type} (m : Int) (enc : List R → Bool) (rows : List R) (s : RespSt R)
    (h : Steps (RespStep m enc) (respInit rows) s) :
    (s.sent.map Part.part = List.range s.sent.length) ∧
    ((s.sent.map Part.rows).flatten ++ s.buf ++ pendingRow s.pc ++ s.input = rows) := by
  have key : s.part = s.sent.length ∧ (s.sent.map Part.part = List.range s.sent.length) ∧
      ((s.sent.map Part.rows).flatten ++ s.buf ++ pendingRow s.pc ++ s.input = rows) := by
    refine Steps.inv (I := fun s : RespSt R => s.part = s.sent.length ∧ (s.sent.map Part.part = List.range s.sent.length) ∧
      ((s.sent.map Part.rows).flatten ++ s.buf ++ pendingRow s.pc ++ s.input = rows)) ?_ h ?_
    · intro b s t hi hst
      obtain ⟨a1, a2, a5⟩ := hi
      cases hst with
      | deliver he =>
        rename_i rs buf p sent c k
        simp only at a1 a2 a5
        subst a1
        cases k <;> exact ⟨by simp [afterShip], by simp [afterShip, a2, List.range_succ],
            by simpa [afterShip, pendingRow] using a5⟩
      | encodeFails he =>
        rename_i rs buf p sent c k
        simp only at a1 a2 a5
        subst a1
        cases k <;> exact ⟨by simp [afterShip], by simp [afterShip, a2, List.range_succ],
            by simpa [afterShip, pendingRow] using a5⟩
      | _ => simp_all [pendingRow]
    · simp [respInit, pendingRow]
  exact key.2

/-- A run with a flush in the middle. -/
example : ∃ s, Steps (RespStep 2 (fun _ => true)) (respInit [1, 2, 3]) s ∧ s.pc = .closed ∧ s.cancelled = false ∧
    s.sent = [⟨0, [1]⟩, ⟨1, [2, 3]⟩] :=
  ⟨⟨[], [], 2, [⟨0, [1]⟩, ⟨1, [2, 3]⟩], .closed, false⟩,
    .tail (.tail (.tail (.tail (.tail (.tail (.tail .refl (.row (by decide))) (.deadline (by decide))) (.deliver rfl))
      (.row (by decide))) (.row (by decide))) .rowsEnd) (.deliver rfl), rfl, rfl, rfl⟩

/-- C39 refuted for the response channel: it sends without looking at the context, so if the reader
goes away the goroutine stays blocked after cancellation. -/
theorem C39_response_refuted :
    ∃ s : RespSt Nat, s.cancelled = true ∧ s.pc ≠ .closed ∧
      Steps (RespStep 1 (fun _ => true)) (respInit [1]) s ∧
      ∀ b t, RespStep 1 (fun _ => true) b s t → b = .consumer := by
  refine ⟨⟨[], [1], 0, [], .ship .final, true⟩, rfl, by simp,
    .tail (.tail (.tail .refl (.row (by decide))) .cancel) .abort, ?_⟩
  intro b t h
  cases h with
  | deliver => rfl
  | encodeFails he => simp at he

/-! ## Throttler -/

/-- C58: an operation is only admitted by a tick while the throttler is open. -/
theorem C58_rate (s : ThrSt) (h : Steps ThrStep thrInit s) :
    s.admitted ≤ s.ticks ∧ (s.doneClosed = false → s.passed = 0) := by
  have key : s.admitted + (if s.buf then 1 else 0) = s.ticks ∧ (s.doneClosed = false → s.passed = 0) := by
    refine Steps.inv (I := fun s : ThrSt => s.admitted + (if s.buf then 1 else 0) = s.ticks ∧
      (s.doneClosed = false → s.passed = 0)) ?_ h ?_
    · intro b s t hi hst
      cases hst <;> simp_all
    · simp [thrInit]
  exact ⟨by have := key.1; split at this <;> omega, key.2⟩

/-- C58: once closed, `ChargeOp` never blocks again. -/
theorem C58_closed_forever (s t : ThrSt) (hd : s.doneClosed = true) (h : Steps ThrStep s t) : t.chargeReady := by
  have : t.doneClosed = true := by
    refine Steps.inv (I := fun s : ThrSt => s.doneClosed = true) ?_ h hd
    intro b s t hi hst
    cases hst <;> simp_all
  exact .inr this

/-- A `Close` call is running. -/
def Closer.active : Closer → Bool
  | .start | .stopping | .closing => true
  | _ => false

/-- Steps in which `Close` is only called when no other `Close` is running. -/
def SeqStep (b : By) (s t : ThrSt) : Prop :=
  ThrStep b s t ∧ (s.closers.length < t.closers.length → ∀ c ∈ s.closers, c.active = false)

/-- C58, partial: closing any number of times one after the other never panics, and after the first `Close` has
returned the throttler is closed. -/
theorem C58_sequential_partial (s : ThrSt) (h : Steps SeqStep thrInit s) :
    (∀ c ∈ s.closers, c ≠ .panicked) ∧ ((∃ c ∈ s.closers, c = .returned) → s.doneClosed = true) := by
  have key : ∃ pre : List Closer, ∃ last : List Closer, s.closers = pre ++ last ∧
      (∀ c ∈ pre, c = .returned) ∧ (pre ≠ [] → s.doneClosed = true ∧ s.running = false) ∧
      ((last = [] ∧ (pre = [] → s.running = true ∧ s.doneClosed = false)) ∨
       (last = [.start] ∧ (pre = [] → s.running = true ∧ s.doneClosed = false)) ∨
       (last = [.stopping] ∧ s.running = true ∧ s.doneClosed = false ∧ pre = []) ∨
       (last = [.closing] ∧ s.running = false ∧ s.doneClosed = false ∧ pre = [])) := by
    refine Steps.inv (I := fun s : ThrSt => ∃ pre : List Closer, ∃ last : List Closer, s.closers = pre ++ last ∧
      (∀ c ∈ pre, c = .returned) ∧ (pre ≠ [] → s.doneClosed = true ∧ s.running = false) ∧
      ((last = [] ∧ (pre = [] → s.running = true ∧ s.doneClosed = false)) ∨
       (last = [.start] ∧ (pre = [] → s.running = true ∧ s.doneClosed = false)) ∨
       (last = [.stopping] ∧ s.running = true ∧ s.doneClosed = false ∧ pre = []) ∨
       (last = [.closing] ∧ s.running = false ∧ s.doneClosed = false ∧ pre = []))) ?_ h ?_
    · rintro b s t ⟨pre, last, e, hp, hd, hl⟩ ⟨hst, hseq⟩
      -- the closer that moves is the last one
      have hidx : ∀ (i : Nat) (c : Closer), s.closers[i]? = some c → c ≠ .returned → i = pre.length ∧ last = [c] := by
        intro i c hi hc
        rw [e] at hi
        by_cases hlt : i < pre.length
        · rw [List.getElem?_append_left hlt] at hi
          exact absurd (hp c (List.mem_of_getElem? hi)) hc
        · rw [List.getElem?_append_right (by omega)] at hi
          have : ∃ x, last = [x] ∨ last = [] := by
            rcases hl with h | h | h | h
            · exact ⟨.start, .inr h.1⟩
            · exact ⟨_, .inl h.1⟩
            · exact ⟨_, .inl h.1⟩
            · exact ⟨_, .inl h.1⟩
          obtain ⟨x, hx | hx⟩ := this
          · rw [hx] at hi
            have hz : i - pre.length = 0 := by
              by_contra hne
              rw [List.getElem?_eq_none (by simp; omega)] at hi
              simp at hi
            rw [hz] at hi
            simp at hi
            exact ⟨by omega, by rw [hx, hi]⟩
          · rw [hx] at hi; simp at hi
      have hset : ∀ (c d : Closer), last = [c] → s.closers.set pre.length d = pre ++ [d] := by
        intro c d hc
        rw [e, hc]
        simp
      cases hst with
      | tick => exact ⟨pre, last, e, hp, hd, hl⟩
      | charge => exact ⟨pre, last, e, hp, hd, hl⟩
      | pass => exact ⟨pre, last, e, hp, hd, hl⟩
      | call =>
        have hact := hseq (by simp)
        have : last = [] := by
          rcases hl with h | h | h | h
          · exact h.1
          all_goals
            exfalso
            have := hact _ (by rw [e, h.1]; exact List.mem_append_right _ (List.mem_singleton.2 rfl))
            simp [Closer.active] at this
        subst this
        refine ⟨pre, [.start], by simp [e], hp, hd, .inr (.inl ⟨rfl, ?_⟩)⟩
        rcases hl with h | h | h | h
        · exact h.2
        · simp at h
        · simp at h
        · simp at h
      | test hi =>
        obtain ⟨rfl, hlast⟩ := hidx _ _ hi (by simp)
        by_cases hpre : pre = []
        · subst hpre
          have : s.running = true ∧ s.doneClosed = false := by
            rcases hl with h | h | h | h
            · exact h.2 rfl
            · exact h.2 rfl
            · rw [hlast] at h; simp at h
            · rw [hlast] at h; simp at h
          refine ⟨[], [.stopping], ?_, by simp, by simp, .inr (.inr (.inl ⟨rfl, this.1, this.2, rfl⟩))⟩
          simp only [this.1, if_true]
          exact hset _ _ hlast
        · obtain ⟨d1, d2⟩ := hd hpre
          refine ⟨pre ++ [.returned], [], ?_, ?_, fun _ => ⟨d1, d2⟩, .inl ⟨rfl, by simp⟩⟩
          · simp only [d2]
            rw [hset _ _ hlast]; simp
          · intro c hc
            rcases List.mem_append.1 hc with hc | hc
            · exact hp c hc
            · simpa using hc
      | stop hi =>
        obtain ⟨rfl, hlast⟩ := hidx _ _ hi (by simp)
        rcases hl with h | h | h | h
        · rw [hlast] at h; simp at h
        · rw [hlast] at h; simp at h
        · obtain ⟨-, h1, h2, h3⟩ := h
          subst h3
          exact ⟨[], [.closing], hset _ _ hlast, by simp, by simp, .inr (.inr (.inr ⟨rfl, rfl, h2, rfl⟩))⟩
        · rw [hlast] at h; simp at h
      | close hi =>
        obtain ⟨rfl, hlast⟩ := hidx _ _ hi (by simp)
        rcases hl with h | h | h | h
        · rw [hlast] at h; simp at h
        · rw [hlast] at h; simp at h
        · rw [hlast] at h; simp at h
        · obtain ⟨-, h1, h2, h3⟩ := h
          subst h3
          refine ⟨[.returned], [], ?_, by simp, fun _ => ⟨rfl, h1⟩, .inl ⟨rfl, by simp⟩⟩
          simp only [h2]
          rw [hset _ _ hlast]; simp
    · exact ⟨[], [], by simp [thrInit], by simp, by simp, .inl ⟨rfl, fun _ => ⟨rfl, rfl⟩⟩⟩
  obtain ⟨pre, last, e, hp, hd, hl⟩ := key
  constructor
  · intro c hc
    rw [e] at hc
    rcases List.mem_append.1 hc with hc | hc
    · rw [hp c hc]; simp
    · rcases hl with h | h | h | h <;> rw [h.1] at hc <;> simp at hc
      all_goals subst hc; simp
  · rintro ⟨c, hc, rfl⟩
    rw [e] at hc
    rcases List.mem_append.1 hc with hc | hc
    · exact (hd (List.ne_nil_of_mem hc)).1
    · rcases hl with h | h | h | h <;> rw [h.1] at hc <;> simp at hc

/-- Closing twice in a row. -/
example : ∃ s, Steps SeqStep thrInit s ∧ s.closers = [.returned, .returned] ∧ s.chargeReady := by
  refine ⟨⟨false, true, true, false, 0, 0, 0, [.returned, .returned]⟩, ?_, rfl, .inr rfl⟩
  refine .tail (.tail (.tail (.tail (.tail (.tail .refl ⟨.call, ?_⟩) ⟨.test (i := 0) rfl, ?_⟩) ⟨.stop (i := 0) rfl, ?_⟩)
    ⟨.close (i := 0) rfl, ?_⟩) ⟨.call, ?_⟩) ⟨.test (i := 1) rfl, ?_⟩ <;> simp [thrInit, Closer.active]

/-- C58 refuted: two concurrent `Close` calls can both see a running throttler, and the second `close(done)`
panics. -/
theorem C58_concurrent_close_refuted :
    ∃ s, Steps ThrStep thrInit s ∧ Closer.panicked ∈ s.closers := by
  refine ⟨⟨false, true, true, false, 0, 0, 0, [.returned, .panicked]⟩, ?_, by simp⟩
  exact .tail (.tail (.tail (.tail (.tail (.tail (.tail (.tail .refl .call) .call) (.test (i := 0) rfl))
    (.test (i := 1) rfl)) (.stop (i := 0) rfl)) (.close (i := 0) rfl)) (.stop (i := 1) rfl)) (.close (i := 1) rfl)

end Vfilter
