import Verif.Props.Conc
import Verif.Props.Plugins
/-!
# C37, C39, C40 (streams): the statement, flatten and range as goroutines, over all schedules
-/

set_option linter.all false

namespace Vfilter

/-! ## The goroutine of a statement -/

def fwdInit {R : Type} (rows : List R) : FwdSt R := ⟨rows, none, [], false, false⟩

/-- C39 for a statement: whatever was delivered, cancelled or not, is a prefix of the rows of the query; all of
them if it ended without cancellation. -/
theorem C39_statement_rows {R : Type} (rows : List R) (s : FwdSt R) (h : Steps FwdStep (fwdInit rows) s) :
    s.out <+: rows ∧ (s.closed = true → s.cancelled = false → s.out = rows) := by
  have key : (s.out ++ s.hold.toList <+: rows ∧ (s.closed = false → s.out ++ s.hold.toList ++ s.input <+: rows)) ∧
      (s.cancelled = false → s.out ++ s.hold.toList ++ s.input = rows ∧
        (s.closed = true → s.hold = none ∧ s.input = [])) := by
    refine Steps.inv (I := fun s : FwdSt R => (s.out ++ s.hold.toList <+: rows ∧
        (s.closed = false → s.out ++ s.hold.toList ++ s.input <+: rows)) ∧
      (s.cancelled = false → s.out ++ s.hold.toList ++ s.input = rows ∧
        (s.closed = true → s.hold = none ∧ s.input = []))) ?_ h ?_
    · rintro b s t ⟨⟨hi, hj⟩, hk⟩ hst
      cases hst with
      | @recv r rs out c =>
        have hj := hj rfl
        have e : out ++ [r] ++ rs = out ++ [] ++ r :: rs := by simp
        refine ⟨⟨List.IsPrefix.trans ⟨rs, e⟩ hj, fun _ => by simpa using hj⟩, fun hc => ?_⟩
        have := (hk hc).1
        exact ⟨by simpa using this, by simp⟩
      | send => simp_all
      | @abort rs hd out =>
        refine ⟨⟨?_, by simp⟩, by simp⟩
        exact List.IsPrefix.trans (by simp) hi
      | finish => simp_all
      | inputEnds => simp_all
      | cancel => simp_all
    · simp [fwdInit]
  refine ⟨List.IsPrefix.trans (List.prefix_append _ _) key.1.1, fun hcl hc => ?_⟩
  obtain ⟨h1, h2⟩ := key.2 hc
  obtain ⟨e1, e2⟩ := h2 hcl
  simpa [e1, e2] using h1

def fwdMu {R : Type} (s : FwdSt R) : Nat :=
  2 * s.input.length + s.hold.toList.length + (if s.closed then 0 else 1)

theorem fwdMu_lt {R : Type} {b : By} {s t : FwdSt R} (h : FwdStep b s t) (hb : b ≠ .env) : fwdMu t < fwdMu s := by
  cases h <;> simp_all [fwdMu] <;> omega

/-- C39 for a statement: after cancellation the output closes on every schedule, even if nobody reads it and
even if the query never delivers another row (no step of the input is needed). -/
theorem C39_statement_ends {R : Type} (s : FwdSt R) (hc : s.cancelled = true) :
    Inevitable (fun b => b = .proc) FwdStep (fun s => s.closed = true) s := by
  refine Inevitable.measure (I := fun s => s.cancelled = true) fwdMu ?_ ?_ ?_ hc
  · intro b s t hI h; cases h <;> simp_all
  · intro b s t hI h
    refine fwdMu_lt h ?_
    rintro rfl
    cases h; simp at hI
  · intro s hI hP
    obtain ⟨inp, hold, out, c, cl⟩ := s
    simp only at hI hP
    subst hI
    have : cl = false := by simpa using hP
    subst this
    exact ⟨_, _, rfl, .abort⟩

/-- Without cancellation a statement ends if its output is read. -/
theorem C39_statement_completes {R : Type} (s : FwdSt R) (hc : s.cancelled = false) :
    Inevitable Read (fun b s t => FwdStep b s t ∧ t.cancelled = false) (fun s => s.closed = true) s := by
  refine Inevitable.measure (I := fun s => s.cancelled = false) fwdMu ?_ ?_ ?_ hc
  · intro b s t _ h; exact h.2
  · rintro b s t hI ⟨h, hc⟩
    refine fwdMu_lt h ?_
    rintro rfl
    cases h; simp at hc
  · intro s hI hP
    obtain ⟨inp, hold, out, c, cl⟩ := s
    simp only at hI hP
    subst hI
    have : cl = false := by simpa using hP
    subst this
    cases hold with
    | some o => exact ⟨_, _, .inr (.inr rfl), .send, rfl⟩
    | none =>
      cases inp with
      | nil => exact ⟨_, _, .inl rfl, .finish, rfl⟩
      | cons r rs => exact ⟨_, _, .inr (.inl rfl), .recv, rfl⟩

example : ∃ s, Steps FwdStep (fwdInit [1, 2, 3]) s ∧ s.closed = true ∧ s.cancelled = true ∧ s.out = [1] :=
  ⟨⟨[3], none, [1], true, true⟩, .tail (.tail (.tail (.tail (.tail .refl .recv) .send) .recv) .cancel) .abort, rfl, rfl, rfl⟩

/-! ## flatten -/

def flatInit {R O : Type} (rows : List R) : FlatSt R O := ⟨rows, [], [], false, false⟩

theorem flat_inv {R O : Type} (f : R → List O) (rows : List R) (s : FlatSt R O)
    (h : Steps (FlatStep f) (flatInit rows) s) :
    (s.out ++ s.buf <+: rows.flatMap f ∧ (s.closed = false → s.out ++ s.buf ++ s.input.flatMap f <+: rows.flatMap f)) ∧
      (s.cancelled = false → s.out ++ s.buf ++ s.input.flatMap f = rows.flatMap f ∧
        (s.closed = true → s.buf = [] ∧ s.input = [])) := by
  refine Steps.inv (I := fun s : FlatSt R O =>
    (s.out ++ s.buf <+: rows.flatMap f ∧ (s.closed = false → s.out ++ s.buf ++ s.input.flatMap f <+: rows.flatMap f)) ∧
      (s.cancelled = false → s.out ++ s.buf ++ s.input.flatMap f = rows.flatMap f ∧
        (s.closed = true → s.buf = [] ∧ s.input = []))) ?_ h ?_
  · rintro b s t ⟨⟨hi, hj⟩, hk⟩ hst
    cases hst with
    | @recv r rs out c =>
      have hj := hj rfl
      have e : out ++ f r ++ rs.flatMap f = out ++ [] ++ (r :: rs).flatMap f := by simp
      refine ⟨⟨List.IsPrefix.trans ⟨rs.flatMap f, e⟩ hj, fun _ => by simpa using hj⟩, fun hc => ?_⟩
      have := (hk hc).1
      exact ⟨by simpa using this, by simp⟩
    | send => simp_all
    | @abort rs o buf out =>
      refine ⟨⟨?_, by simp⟩, by simp⟩
      exact List.IsPrefix.trans (by simp) hi
    | finish => simp_all
    | inputEnds => simp_all
    | cancel => simp_all
  · simp [flatInit]

/-- C37 on the output channel: without cancellation the output is a prefix of, and at the end exactly, the
expansions of the rows one after the other. -/
theorem C37_stream {R O : Type} (f : R → List O) (rows : List R) (s : FlatSt R O)
    (h : Steps (FlatStep f) (flatInit rows) s) (hc : s.cancelled = false) :
    s.out <+: rows.flatMap f ∧ (s.closed = true → s.out = rows.flatMap f) := by
  have key := flat_inv f rows s h
  refine ⟨List.IsPrefix.trans (List.prefix_append _ _) key.1.1, fun hcl => ?_⟩
  obtain ⟨h1, h2⟩ := key.2 hc
  obtain ⟨e1, e2⟩ := h2 hcl
  simpa [e1, e2] using h1

/-- C39 for flatten: whatever was delivered, cancelled or not, is a prefix of the full result. -/
theorem C39_flatten_rows {R O : Type} (f : R → List O) (rows : List R) (s : FlatSt R O)
    (h : Steps (FlatStep f) (flatInit rows) s) : s.out <+: rows.flatMap f :=
  List.IsPrefix.trans (List.prefix_append _ _) (flat_inv f rows s h).1.1

/-- Rows still to be sent. -/
def flatMu {R O : Type} (f : R → List O) (s : FlatSt R O) : Nat :=
  (s.input.map fun r => (f r).length + 1).sum + s.buf.length + (if s.closed then 0 else 1)

theorem flatMu_lt {R O : Type} (f : R → List O) {b : By} {s t : FlatSt R O} (h : FlatStep f b s t) (hb : b ≠ .env) :
    flatMu f t < flatMu f s := by
  cases h <;> simp_all [flatMu] <;> omega

/-- C39 for flatten: after cancellation the output closes on every schedule, even if nobody reads it. -/
theorem C39_flatten_ends {R O : Type} (f : R → List O) (s : FlatSt R O) (hc : s.cancelled = true) :
    Inevitable Unread (FlatStep f) (fun s => s.closed = true) s := by
  refine Inevitable.measure (I := fun s => s.cancelled = true) (flatMu f) ?_ ?_ ?_ hc
  · intro b s t hI h; cases h <;> simp_all
  · intro b s t hI h
    refine flatMu_lt f h ?_
    rintro rfl
    cases h; simp at hI
  · intro s hI hP
    obtain ⟨inp, buf, out, c, cl⟩ := s
    simp only at hI hP
    subst hI
    have : cl = false := by simpa using hP
    subst this
    cases buf with
    | cons o buf => exact ⟨_, _, .inl rfl, .abort⟩
    | nil =>
      cases inp with
      | nil => exact ⟨_, _, .inl rfl, .finish⟩
      | cons r rs => exact ⟨_, _, .inr rfl, .inputEnds⟩

/-- Without cancellation flatten ends if its output is read. -/
theorem C37_completes {R O : Type} (f : R → List O) (s : FlatSt R O) (hc : s.cancelled = false) :
    Inevitable Read (fun b s t => FlatStep f b s t ∧ t.cancelled = false) (fun s => s.closed = true) s := by
  refine Inevitable.measure (I := fun s => s.cancelled = false) (flatMu f) ?_ ?_ ?_ hc
  · intro b s t _ h; exact h.2
  · rintro b s t hI ⟨h, hc⟩
    refine flatMu_lt f h ?_
    rintro rfl
    cases h; simp at hc
  · intro s hI hP
    obtain ⟨inp, buf, out, c, cl⟩ := s
    simp only at hI hP
    subst hI
    have : cl = false := by simpa using hP
    subst this
    cases buf with
    | cons o buf => exact ⟨_, _, .inr (.inr rfl), .send, rfl⟩
    | nil =>
      cases inp with
      | nil => exact ⟨_, _, .inl rfl, .finish, rfl⟩
      | cons r rs => exact ⟨_, _, .inr (.inl rfl), .recv, rfl⟩

example : ∃ s, Steps (FlatStep fun n : Nat => [n, n]) (flatInit [1, 2]) s ∧ s.closed = true ∧ s.cancelled = false ∧
    s.out = [1, 1, 2, 2] :=
  ⟨⟨[], [], [1, 1, 2, 2], false, true⟩,
    .tail (.tail (.tail (.tail (.tail (.tail (.tail .refl .recv) .send) .send) .recv) .send) .send) .finish, rfl, rfl, rfl⟩

/-! ## range -/

def rngInit (start : I64) : RngSt := ⟨start, [], false, false⟩

section
variable {start stop step : I64}

/-- The counter does not pass 2^63. -/
def RngOK (stop step : I64) : Prop := 1 ≤ step.toInt ∧ stop.toInt + step.toInt ≤ 2 ^ 63

theorem rng_add (h : RngOK stop step) {i : I64} (hi : i.toInt < stop.toInt) : (i + step).toInt = i.toInt + step.toInt := by
  have := BitVec.le_toInt i
  obtain ⟨h1, h2⟩ := h
  apply toInt_add_of <;> omega

/-- C40 on the output channel: what was delivered, cancelled or not, is a prefix of start, start + step, ... below
the end, and all of it if range ended without cancellation. -/
theorem C40_stream_partial (h : RngOK stop step) (s : RngSt) (hs : Steps (RngStep stop step) (rngInit start) s) :
    (∀ (k : Nat) (x : I64), s.out[k]? = some x → x.toInt = start.toInt + k * step.toInt ∧ x.toInt < stop.toInt) ∧
      (s.closed = true → s.cancelled = false → stop.toInt ≤ start.toInt + s.out.length * step.toInt) := by
  have key : (∀ (k : Nat) (x : I64), s.out[k]? = some x → x.toInt = start.toInt + k * step.toInt ∧ x.toInt < stop.toInt) ∧
      s.i.toInt = start.toInt + s.out.length * step.toInt ∧
      (s.closed = true → s.cancelled = false → stop.toInt ≤ s.i.toInt) := by
    refine Steps.inv (I := fun s : RngSt =>
      (∀ (k : Nat) (x : I64), s.out[k]? = some x → x.toInt = start.toInt + k * step.toInt ∧ x.toInt < stop.toInt) ∧
      s.i.toInt = start.toInt + s.out.length * step.toInt ∧
      (s.closed = true → s.cancelled = false → stop.toInt ≤ s.i.toInt)) ?_ hs ?_
    · rintro b s t ⟨h1, h2, h3⟩ hst
      cases hst with
      | @send i out c hlt =>
        refine ⟨fun k x hk => ?_, ?_, by simp⟩
        · rw [List.getElem?_append] at hk
          split at hk
          · exact h1 k x hk
          · rename_i hge
            have hk' : k = out.length := by
              have := (List.getElem?_eq_some_iff.1 hk).1
              simp at this hge
              omega
            subst hk'
            simp at hk
            subst hk
            exact ⟨h2, hlt⟩
        · simp only [List.length_append, List.length_singleton]
          rw [rng_add h hlt]
          simp only at h2
          rw [h2]
          push_cast
          ring
      | abort => exact ⟨h1, h2, by simp⟩
      | finish hge => exact ⟨h1, h2, fun _ _ => by simpa using hge⟩
      | cancel => exact ⟨h1, h2, by simp⟩
    · exact ⟨by simp [rngInit], by simp [rngInit], by simp [rngInit]⟩
  exact ⟨key.1, fun a b => key.2.1 ▸ key.2.2 a b⟩

def rngMu (stop : I64) (s : RngSt) : Nat := (stop.toInt - s.i.toInt).toNat + (if s.closed then 0 else 1)

theorem rngMu_lt (h : RngOK stop step) {b : By} {s t : RngSt} (hs : RngStep stop step b s t) (hb : b ≠ .env) :
    rngMu stop t < rngMu stop s := by
  cases hs with
  | @send i out c hlt =>
    have e := rng_add h hlt
    have := h.1
    simp only [rngMu, e]
    omega
  | abort => simp [rngMu]
  | finish => simp [rngMu]
  | cancel => exact absurd rfl hb

/-- C39 for range: after cancellation the output closes on every schedule, even if nobody reads it. -/
theorem C39_range_ends (h : RngOK stop step) (s : RngSt) (hc : s.cancelled = true) :
    Inevitable Unread (RngStep stop step) (fun s => s.closed = true) s := by
  refine Inevitable.measure (I := fun s => s.cancelled = true) (rngMu stop) ?_ ?_ ?_ hc
  · intro b s t hI h; cases h <;> simp_all
  · intro b s t hI hs
    refine rngMu_lt h hs ?_
    rintro rfl
    cases hs; simp at hI
  · intro s hI hP
    obtain ⟨i, out, c, cl⟩ := s
    simp only at hI hP
    subst hI
    have : cl = false := by simpa using hP
    subst this
    by_cases hlt : i.toInt < stop.toInt
    · exact ⟨_, _, .inl rfl, .abort hlt⟩
    · exact ⟨_, _, .inl rfl, .finish hlt⟩

/-- Without cancellation range ends if its output is read. -/
theorem C40_completes_partial (h : RngOK stop step) (s : RngSt) (hc : s.cancelled = false) :
    Inevitable Read (fun b s t => RngStep stop step b s t ∧ t.cancelled = false) (fun s => s.closed = true) s := by
  refine Inevitable.measure (I := fun s => s.cancelled = false) (rngMu stop) ?_ ?_ ?_ hc
  · intro b s t hI h; exact h.2
  · rintro b s t hI ⟨hs, hc⟩
    refine rngMu_lt h hs ?_
    rintro rfl
    cases hs; simp at hc
  · intro s hI hP
    obtain ⟨i, out, c, cl⟩ := s
    simp only at hI hP
    subst hI
    have : cl = false := by simpa using hP
    subst this
    by_cases hlt : i.toInt < stop.toInt
    · exact ⟨_, _, .inr (.inr rfl), .send hlt, rfl⟩
    · exact ⟨_, _, .inl rfl, .finish hlt, rfl⟩

example : RngOK 12#64 3#64 := by unfold RngOK; decide

example : ∃ s, Steps (RngStep 5#64 3#64) (rngInit 0#64) s ∧ s.closed = true ∧ s.cancelled = false ∧ s.out = [0#64, 3#64] :=
  ⟨⟨6#64, [0#64, 3#64], false, true⟩,
    .tail (.tail (.tail .refl (.send (i := 0#64) (by decide))) (.send (i := 3#64) (by decide))) (.finish (i := 6#64) (by decide)), rfl, rfl, rfl⟩

end

end Vfilter
