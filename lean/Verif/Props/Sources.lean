import Verif.Sources
import Verif.Props.Conc
/-!
# C70: results of methods are computed once; C71: list sources and materialized queries
-/

set_option linter.all false

namespace Vfilter.Src

/-! ## C71 -/

/-- The goroutine at its start. -/
def lstInit {R : Type} : LstSt R := ⟨none, [], false, false⟩

theorem lst_inv {R : Type} (rows : List R) {b : By} {s t : LstSt R}
    (hI : ((s.todo = none → s.out = []) ∧ (∀ l, s.todo = some l → s.out ++ l = rows)) ∧
      (s.closed = true → s.cancelled = false → s.todo = some [])) (h : LstStep rows b s t) :
    ((t.todo = none → t.out = []) ∧ (∀ l, t.todo = some l → t.out ++ l = rows)) ∧
      (t.closed = true → t.cancelled = false → t.todo = some []) := by
  obtain ⟨⟨h1, h2⟩, h3⟩ := hI
  cases h <;> simp_all

/-- C71: on every schedule what a reader has got is a beginning of the list, and when the channel is
closed without cancellation it is the whole list, in order. -/
theorem C71_rows {R : Type} (rows : List R) (s : LstSt R) (h : Steps (LstStep rows) lstInit s) :
    (∃ rest, s.out ++ rest = rows) ∧ (s.closed = true → s.cancelled = false → s.out = rows) := by
  obtain ⟨⟨h1, h2⟩, h3⟩ := Steps.inv (I := fun s : LstSt R =>
    ((s.todo = none → s.out = []) ∧ (∀ l, s.todo = some l → s.out ++ l = rows)) ∧
      (s.closed = true → s.cancelled = false → s.todo = some []))
    (fun b s t hI h => lst_inv rows hI h) h (by simp [lstInit])
  refine ⟨?_, fun hc hn => ?_⟩
  · cases ht : s.todo with
    | none => exact ⟨rows, by rw [h1 ht]; rfl⟩
    | some l => exact ⟨l, h2 l ht⟩
  · have := h2 [] (h3 hc hn)
    simpa using this

/-- Steps left. -/
def lstMu {R : Type} (rows : List R) (s : LstSt R) : Nat :=
  (match s.todo with
    | none => rows.length + 1
    | some l => l.length) + (if s.closed then 0 else 1)

theorem lstMu_lt {R : Type} (rows : List R) {b : By} {s t : LstSt R} (h : LstStep rows b s t) (hb : b ≠ .env) :
    lstMu rows t < lstMu rows s := by
  cases h with
  | call => simp [lstMu]
  | send => simp [lstMu]
  | abort => simp [lstMu]
  | finish => simp [lstMu]
  | cancel => exact absurd rfl hb

/-- C71: after cancellation the goroutine ends on every schedule, also if nobody reads. -/
theorem C71_ends {R : Type} (rows : List R) (s : LstSt R) (hc : s.cancelled = true) :
    Inevitable (fun b => b = .proc) (LstStep rows) (fun s => s.closed = true) s := by
  refine Inevitable.measure (I := fun s => s.cancelled = true) (lstMu rows) ?_ ?_ ?_ hc
  · intro b s t hI h; cases h <;> simp_all
  · intro b s t hI hs
    refine lstMu_lt rows hs ?_
    rintro rfl
    cases hs; simp at hI
  · intro s hI hP
    obtain ⟨td, out, c, cl⟩ := s
    simp only at hI hP
    subst hI
    have : cl = false := by simpa using hP
    subst this
    match td with
    | none => exact ⟨_, _, rfl, .call⟩
    | some [] => exact ⟨_, _, rfl, .finish⟩
    | some (r :: rs) => exact ⟨_, _, rfl, .abort⟩

/-- C71: without cancellation the goroutine ends if its output is read. -/
theorem C71_completes {R : Type} (rows : List R) (s : LstSt R) (hc : s.cancelled = false) :
    Inevitable Read (fun b s t => LstStep rows b s t ∧ t.cancelled = false) (fun s => s.closed = true) s := by
  refine Inevitable.measure (I := fun s => s.cancelled = false) (lstMu rows) ?_ ?_ ?_ hc
  · intro b s t hI h; exact h.2
  · rintro b s t hI ⟨hs, hc⟩
    refine lstMu_lt rows hs ?_
    rintro rfl
    cases hs; simp at hc
  · intro s hI hP
    obtain ⟨td, out, c, cl⟩ := s
    simp only at hI hP
    subst hI
    have : cl = false := by simpa using hP
    subst this
    match td with
    | none => exact ⟨_, _, .inl rfl, .call, rfl⟩
    | some [] => exact ⟨_, _, .inl rfl, .finish, rfl⟩
    | some (r :: rs) => exact ⟨_, _, .inr (.inr rfl), .send, rfl⟩

example : ∃ s, Steps (LstStep [1, 2, 3]) lstInit s ∧ s.closed = true ∧ s.cancelled = true ∧ s.out = [1] :=
  ⟨⟨some [2, 3], [1], true, true⟩, .tail (.tail (.tail (.tail .refl .call) .send) .cancel) .abort, rfl, rfl, rfl⟩

/-- `Materialize` at its start. -/
def matInit {R : Type} : MatSt R := ⟨lstInit, [], false, 0, true, false⟩

/-- Executions of `Materialize`. -/
inductive MatSteps {R : Type} (rows : List R) : MatSt R → MatSt R → Prop where
  | refl {s} : MatSteps rows s s
  | tail {s t u} : MatSteps rows s t → MatStep rows t u → MatSteps rows s u

/-- What is true all the time. -/
structure MatOK {R : Type} (rows : List R) (s : MatSt R) : Prop where
  same : s.result = s.src.out
  empty : s.src.todo = none → s.src.out = []
  rest : ∀ l, s.src.todo = some l → s.src.out ++ l = rows
  whole : s.src.closed = true → s.src.cancelled = false → s.src.todo = some []
  warned : s.warned = decide (s.result.length > 10000)
  count : s.warnings = if s.result.length > 10000 then 1 else 0
  ended : s.returned = true → s.src.closed = true ∧ s.scopeOpen = false

theorem mat_ok {R : Type} (rows : List R) {s t : MatSt R} (h : MatOK rows s) (st : MatStep rows s t) : MatOK rows t := by
  obtain ⟨h1, h2, h3, h4, h5, h6, h7⟩ := h
  cases st with
  | @source b s t res w n hs hb =>
    obtain ⟨⟨k1, k2⟩, k3⟩ := lst_inv rows ⟨⟨h2, h3⟩, h4⟩ hs
    refine ⟨?_, k1, k2, k3, h5, h6, by simp⟩
    cases hs <;> first | exact h1 | exact absurd rfl hb
  | @recv r rs out c res w n =>
    simp only at h1 h5 h6
    subst h1
    have := h3 (r :: rs) rfl
    refine ⟨rfl, by simp, ?_, by simp, ?_, ?_, by simp⟩
    · rintro l ⟨⟩; simpa using this
    · simp only [h5, List.length_append, List.length_singleton]
      by_cases h : res.length > 10000
      · simp [h]; omega
      · simp [h]
    · simp only [h5, h6, List.length_append, List.length_singleton]
      by_cases h : res.length > 10000
      · have h' : res.length + 1 > 10000 := by omega
        simp [h, h']
      · simp [h]
  | ret => exact ⟨h1, h2, h3, h4, h5, h6, fun _ => ⟨rfl, rfl⟩⟩

/-- C71: `Materialize` returns, on every schedule, the rows of the source in order, all of them if it
was not cancelled and otherwise a beginning; its scope is closed then; and it has warned once if there
are more than 10000 rows and not otherwise. -/
theorem C71_materialize {R : Type} (rows : List R) (s : MatSt R) (h : MatSteps rows matInit s)
    (hr : s.returned = true) :
    (∃ rest, s.result ++ rest = rows) ∧ (s.src.cancelled = false → s.result = rows) ∧ s.scopeOpen = false ∧
    s.warnings = if s.result.length > 10000 then 1 else 0 := by
  have ok : MatOK rows s := by
    clear hr
    induction h with
    | refl => exact ⟨rfl, by simp [matInit, lstInit], by simp [matInit, lstInit], by simp [matInit, lstInit],
        by simp [matInit], by simp [matInit], by simp [matInit]⟩
    | tail _ st ih => exact mat_ok rows ih st
  obtain ⟨hc, ho⟩ := ok.ended hr
  refine ⟨?_, fun hn => ?_, ho, ok.count⟩
  · rw [ok.same]
    cases ht : s.src.todo with
    | none => exact ⟨rows, by rw [ok.empty ht]; rfl⟩
    | some l => exact ⟨l, ok.rest l ht⟩
  · rw [ok.same]
    simpa using ok.rest [] (ok.whole hc hn)

/-- C71: a state in which `Materialize` has not returned can go on without the environment. -/
theorem C71_materialize_goes_on {R : Type} (rows : List R) (s : MatSt R) (ho : s.scopeOpen = true)
    (hr : s.returned = false) : ∃ t, MatStep rows s t := by
  obtain ⟨⟨td, out, c, cl⟩, res, w, n, o, r⟩ := s
  simp only at ho hr
  subst ho hr
  cases cl with
  | true => exact ⟨_, .ret⟩
  | false =>
    match td with
    | none => exact ⟨_, .source .call (by simp)⟩
    | some [] => exact ⟨_, .source .finish (by simp)⟩
    | some (r :: rs) => exact ⟨_, .recv⟩

example : ∃ s, MatSteps [7, 8] matInit s ∧ s.returned = true ∧ s.result = [7, 8] :=
  ⟨⟨⟨some [], [7, 8], false, true⟩, [7, 8], false, 0, false, true⟩,
    .tail (.tail (.tail (.tail (.tail .refl (.source .call (by simp))) .recv) .recv) (.source .finish (by simp))) .ret,
    rfl, rfl⟩

/-! ## C70 -/

/-- C70: only listed attributes are visible, and of these the exported fields and the accessor methods. -/
theorem C70_attributes {V : Type} (attributes : List Str) (a : Obj V) (name : Str) :
    ((lazyGet attributes a name).2 = true ↔ name ∈ attributes ∧
      ((∃ v, a.field name = some (.val v)) ∨ a.field name = some .nilPtr ∨
        (∃ outs, a.method name = some (0, outs)) ∧ Intro.isExported name = true)) ∧
    ((lazyGet attributes a name).2 = false → (lazyGet attributes a name).1 = .null) := by
  unfold lazyGet
  by_cases h : attributes.contains name = true
  · have hm : name ∈ attributes := by simpa using h
    rw [if_neg (by simp [hm])]
    rcases hf : a.field name with _ | _ | _ | v
    · rcases hx : a.method name with _ | ⟨ins, outs⟩
      · simp [hm]
      · by_cases hc : (Intro.isExported name && ins == 0) = true
        · simp only [Bool.and_eq_true, beq_iff_eq] at hc
          simp [hm, hc]
        · by_cases h0 : ins = 0
          · subst h0
            have : Intro.isExported name = false := by simpa using hc
            simp [hm, this]
          · simp [hm, h0]
    · rcases hx : a.method name with _ | ⟨ins, outs⟩
      · simp [hm]
      · by_cases hc : (Intro.isExported name && ins == 0) = true
        · simp only [Bool.and_eq_true, beq_iff_eq] at hc
          simp [hm, hc]
        · by_cases h0 : ins = 0
          · subst h0
            have : Intro.isExported name = false := by simpa using hc
            simp [hm, this]
          · simp [hm, h0]
    · simp [hm]
    · simp [hm]
  · have hm : ¬ name ∈ attributes := by simpa using h
    simp [hm]

/-- Executions of callers. -/
inductive RedSteps {V : Type} (cb : Nat → Option V) (n : Nat) : RedSt V → RedSt V → Prop where
  | refl {s} : RedSteps cb n s s
  | tail {s t u} : RedSteps cb n s t → RedStep cb n t u → RedSteps cb n s u

/-- The goroutine holds the lock. -/
def RedPc.holds {V : Type} : RedPc V → Bool
  | .inside | .calling => true
  | _ => false

structure RedOK {V : Type} (cb : Nat → Option V) (s : RedSt V) : Prop where
  mutex : ∀ i, (s.pcs i).holds = true ↔ s.holder = some i
  fresh : ∀ i, s.pcs i = .calling → s.cached = none
  empty : s.cached = none → s.calls = 0
  full : ∀ v, s.cached = some v → s.calls = 1 ∧ cb 0 = some v
  result : ∀ i v, s.pcs i = .returned v → v = cb 0 ∧ s.cached = cb 0

theorem red_mutex {V : Type} {cb : Nat → Option V} {n : Nat} {s t : RedSt V}
    (h : ∀ i, (s.pcs i).holds = true ↔ s.holder = some i) (st : RedStep cb n s t) :
    ∀ i, (t.pcs i).holds = true ↔ t.holder = some i := by
  intro j
  cases st with
  | @acquire i hi hp hh =>
    simp only [RedSt.go]
    by_cases hj : j = i
    · subst hj; simp [RedPc.holds]
    · have := h j; rw [hh] at this; simp [hj, Ne.symm hj, this]
  | @hit i v hp hc =>
    have hi := (h i).mp (by rw [hp]; rfl)
    simp only [RedSt.go]
    by_cases hj : j = i
    · subst hj; simp [RedPc.holds]
    · have := h j; rw [hi] at this; simp [hj, Ne.symm hj] at this ⊢; exact this
  | @miss i hp hc =>
    have hi := (h i).mp (by rw [hp]; rfl)
    simp only [RedSt.go]
    by_cases hj : j = i
    · subst hj; simp [RedPc.holds, hi]
    · simp [hj]; exact h j
  | @done i hp =>
    have hi := (h i).mp (by rw [hp]; rfl)
    simp only [RedSt.go]
    by_cases hj : j = i
    · subst hj; simp [RedPc.holds]
    · have := h j; rw [hi] at this; simp [hj, Ne.symm hj] at this ⊢; exact this

theorem red_ok {V : Type} {cb : Nat → Option V} (hcb : ∃ v, cb 0 = some v) {n : Nat} {s t : RedSt V}
    (h : RedOK cb s) (st : RedStep cb n s t) : RedOK cb t := by
  obtain ⟨h1, h2, h3, h4, h5⟩ := h
  have hm := red_mutex h1 st
  cases st with
  | @acquire i hi hp hh =>
    refine ⟨hm, fun j hj => ?_, h3, h4, fun j v hj => ?_⟩ <;> simp only [RedSt.go] at hj ⊢
    · split at hj
      · cases hj
      · exact h2 j hj
    · split at hj
      · cases hj
      · exact h5 j v hj
  | @hit i v hp hc =>
    refine ⟨hm, fun j hj => ?_, h3, h4, fun j w hj => ?_⟩ <;> simp only [RedSt.go] at hj ⊢
    · split at hj
      · cases hj
      · exact h2 j hj
    · split at hj
      · injection hj with hj; subst hj
        have := (h4 v hc).2
        exact ⟨this.symm, hc.trans this.symm⟩
      · exact h5 j w hj
  | @miss i hp hc =>
    refine ⟨hm, fun j hj => ?_, h3, h4, fun j w hj => ?_⟩ <;> simp only [RedSt.go] at hj ⊢
    · exact hc
    · split at hj
      · cases hj
      · exact h5 j w hj
  | @done i hp =>
    obtain ⟨w, hw⟩ := hcb
    have hc := h2 i hp
    have h0 := h3 hc
    refine ⟨hm, fun j hj => ?_, fun hn => ?_, fun v hv => ?_, fun j v hj => ?_⟩ <;>
      simp only [RedSt.go, h0] at *
    · split at hj
      · cases hj
      · rename_i hne
        have a := (h1 i).mp (by rw [hp]; rfl)
        have b := (h1 j).mp (by rw [hj]; rfl)
        rw [a] at b
        injection b with b
        exact absurd b.symm hne
    · rw [hw] at hn; cases hn
    · exact ⟨trivial, hv⟩
    · split at hj
      · injection hj with hj; exact ⟨hj.symm, trivial⟩
      · exact ⟨(h5 j v hj).1, trivial⟩

/-- C70: on every schedule of any number of callers the method is called at most once, and every caller
gets the value of that call, if it is not Go's nil. -/
theorem C70_once_partial {V : Type} (cb : Nat → Option V) (hcb : ∃ v, cb 0 = some v) (n : Nat) (s : RedSt V)
    (h : RedSteps cb n redInit s) :
    s.calls ≤ 1 ∧ ∀ i v, s.pcs i = .returned v → v = cb 0 := by
  have ok : RedOK cb s := by
    induction h with
    | refl => exact ⟨by simp [redInit, RedPc.holds], by simp [redInit], by simp [redInit], by simp [redInit],
        by simp [redInit]⟩
    | tail _ st ih => exact red_ok hcb ih st
  refine ⟨?_, fun i v hv => (ok.result i v hv).1⟩
  cases hc : s.cached with
  | none => rw [ok.empty hc]; exact Nat.zero_le _
  | some v => rw [(ok.full v hc).1]

/-- C70 is false for a method that returns a nil interface: it is called again for each caller, and the
callers may get different values. -/
theorem C70_nil_refuted : ∃ (cb : Nat → Option Nat) (s : RedSt Nat), RedSteps cb 2 redInit s ∧ s.calls = 2 ∧
    s.pcs 0 = .returned none ∧ s.pcs 1 = .returned (some 5) := by
  let cb : Nat → Option Nat := fun k => if k = 0 then none else some 5
  refine ⟨cb, _, .tail (.tail (.tail (.tail (.tail (.tail .refl
    (.acquire (i := 0) (by omega) rfl rfl)) (.miss (i := 0) rfl rfl)) (.done (i := 0) rfl))
    (.acquire (i := 1) (by omega) rfl rfl)) (.miss (i := 1) rfl rfl)) (.done (i := 1) rfl), rfl, rfl, rfl⟩

/-- Steps left of one caller. -/
def RedPc.left {V : Type} : RedPc V → Nat
  | .lock => 3
  | .inside => 2
  | .calling => 1
  | .returned _ => 0

/-- Steps left of the callers. -/
def redMu {V : Type} (n : Nat) (s : RedSt V) : Nat := ((List.range n).map fun i => (s.pcs i).left).sum

theorem redMu_lt (f g : Nat → Nat) (n i : Nat) (hi : i < n) (hlt : g i < f i) (hs : ∀ j, j ≠ i → g j = f j) :
    ((List.range n).map g).sum < ((List.range n).map f).sum := by
  induction n with
  | zero => exact absurd hi (Nat.not_lt_zero _)
  | succ n ih =>
    rw [List.range_succ, List.map_append, List.map_append, List.sum_append, List.sum_append]
    simp only [List.map_cons, List.map_nil, List.sum_cons, List.sum_nil, Nat.add_zero]
    by_cases h : i = n
    · subst h
      have : (List.range i).map g = (List.range i).map f :=
        List.map_congr_left fun j hj => hs j (by have := List.mem_range.mp hj; omega)
      rw [this]; omega
    · have := ih (by omega)
      have := hs n (by omega)
      omega

/-- Only the callers take part. -/
def RedIn {V : Type} (n : Nat) (s : RedSt V) : Prop :=
  (∀ i, (s.pcs i).holds = true ↔ s.holder = some i) ∧ ∀ i, n ≤ i → s.pcs i = .lock

/-- C70: every call of `Reduce` returns, on every schedule: the mutex cannot be held for ever. -/
theorem C70_ends {V : Type} (cb : Nat → Option V) (n : Nat) :
    Inevitable (fun _ => True) (fun (_ : By) => RedStep cb n) (fun s => ∀ i, i < n → ∃ v, s.pcs i = .returned v)
      redInit := by
  refine Inevitable.measure (I := RedIn n) (redMu n) ?_ ?_ ?_ ?_
  · intro _ s t hI h
    refine ⟨red_mutex hI.1 h, fun j hj => ?_⟩
    cases h with
    | @acquire i hi _ _ => simp only [RedSt.go]; rw [if_neg (by omega)]; exact hI.2 j hj
    | @hit i v hp hc =>
      simp only [RedSt.go]
      rw [if_neg (by rintro rfl; rw [hI.2 j hj] at hp; cases hp)]; exact hI.2 j hj
    | @miss i hp hc =>
      simp only [RedSt.go]
      rw [if_neg (by rintro rfl; rw [hI.2 j hj] at hp; cases hp)]; exact hI.2 j hj
    | @done i hp =>
      simp only [RedSt.go]
      rw [if_neg (by rintro rfl; rw [hI.2 j hj] at hp; cases hp)]; exact hI.2 j hj
  · intro _ s t hI h
    have lt : ∀ i, s.pcs i ≠ .lock → i < n := by
      intro i h
      by_cases hi : i < n
      · exact hi
      · exact absurd (hI.2 i (by omega)) h
    cases h with
    | @acquire i hi hp hh =>
      exact redMu_lt _ _ n i hi (by simp [RedSt.go, hp, RedPc.left]) (fun j hj => by simp [RedSt.go, hj])
    | @hit i v hp hc =>
      exact redMu_lt _ _ n i (lt i (by rw [hp]; simp)) (by simp [RedSt.go, hp, RedPc.left]) (fun j hj => by simp [RedSt.go, hj])
    | @miss i hp hc =>
      exact redMu_lt _ _ n i (lt i (by rw [hp]; simp)) (by simp [RedSt.go, hp, RedPc.left]) (fun j hj => by simp [RedSt.go, hj])
    | @done i hp =>
      exact redMu_lt _ _ n i (lt i (by rw [hp]; simp)) (by simp [RedSt.go, hp, RedPc.left]) (fun j hj => by simp [RedSt.go, hj])
  · intro s hI hP
    cases hh : s.holder with
    | some i =>
      have hi := (hI.1 i).mpr hh
      cases hp : s.pcs i with
      | lock => rw [hp] at hi; cases hi
      | returned v => rw [hp] at hi; cases hi
      | inside =>
        cases hc : s.cached with
        | none => exact ⟨.proc, _, trivial, .miss hp hc⟩
        | some v => exact ⟨.proc, _, trivial, .hit hp hc⟩
      | calling => exact ⟨.proc, _, trivial, .done hp⟩
    | none =>
      have : ∃ i, i < n ∧ ∀ v, s.pcs i ≠ .returned v := by
        apply Classical.byContradiction
        intro hne
        apply hP
        intro i hi
        apply Classical.byContradiction
        intro hv
        exact hne ⟨i, hi, fun v h => hv ⟨v, h⟩⟩
      obtain ⟨i, hi, hv⟩ := this
      cases hp : s.pcs i with
      | lock => exact ⟨.proc, _, trivial, .acquire hi hp hh⟩
      | returned v => exact absurd hp (hv v)
      | inside => have := (hI.1 i).mp (by rw [hp]; rfl); rw [hh] at this; cases this
      | calling => have := (hI.1 i).mp (by rw [hp]; rfl); rw [hh] at this; cases this
  · exact ⟨by simp [redInit, RedPc.holds], by simp [redInit]⟩

/-- A method that returns something makes the callback return something. -/
theorem C70_callback {V : Type} (null : V) (results : List (ResVal V)) :
    lazyCall null results = none ↔ (results = [.nilIface] ∨ ∃ e, results = [.nilIface, e]) := by
  unfold lazyCall
  match results with
  | [] => simp
  | [r] => cases r <;> simp
  | [r, e] => cases r <;> simp
  | a :: b :: c :: l => simp

example : ∃ s : RedSt Nat, RedSteps (fun _ => some 7) 2 redInit s ∧ s.pcs 0 = .returned (some 7) ∧
    s.pcs 1 = .returned (some 7) :=
  ⟨_, .tail (.tail (.tail (.tail (.tail .refl
    (.acquire (i := 0) (by omega) rfl rfl)) (.miss (i := 0) rfl rfl)) (.done (i := 0) rfl))
    (.acquire (i := 1) (by omega) rfl rfl)) (.hit (i := 1) (v := 7) rfl rfl), rfl, rfl⟩

end Vfilter.Src
