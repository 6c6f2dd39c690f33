import Verif.LazyWord
/-!
# C90: an argument asked for by several goroutines
-/
set_option linter.all false

namespace Vfilter.LazyWord

section
variable {T D : Type} {tyFirst : Bool} {can : Option (T × D) → Prop} [DecidablePred can]

/-- What a step does. -/
inductive Eff (tyFirst : Bool) (can : Option (T × D) → Prop) (σ : WSt T D) : WSt T D → Prop where
  | hit {i t} (hp : σ.pc i = .idle) (h : σ.ty = some t) : Eff tyFirst can σ (σ.goto i .reading)
  | start {i} (hp : σ.pc i = .idle) (h : σ.ty = none) : Eff tyFirst can σ ((σ.goto i .evaluating).say (.evaluating i))
  | yield {i v} (hp : σ.pc i = .evaluating) (h : can v) : Eff tyFirst can σ ((σ.goto i (.storing v)).say (.got i v))
  | write1 {i v} (hp : σ.pc i = .storing v) : Eff tyFirst can σ ((σ.word tyFirst v).goto i (.halfway v))
  | write2 {i v} (hp : σ.pc i = .halfway v) : Eff tyFirst can σ ((σ.word (!tyFirst) v).goto i .reading)
  | read1 {i} (hp : σ.pc i = .reading) : Eff tyFirst can σ (σ.goto i (.half σ.ty))
  | read2 {i t} (hp : σ.pc i = .half t) : Eff tyFirst can σ ((σ.goto i .idle).say (.returned i t σ.data))

theorem eff_of_step {σ σ' : WSt T D} {a : Act T D} (h : step tyFirst can σ a = some σ') : Eff tyFirst can σ σ' := by
  cases a with
  | ask i =>
    simp only [step] at h
    split at h
    · next hp =>
      split at h
      · next t ht => cases h; exact .hit hp ht
      · next ht => cases h; exact .start hp ht
    · cases h
  | yield i v =>
    simp only [step] at h
    split at h
    · next hp =>
      split at h
      · next hv => cases h; exact .yield hp hv
      · cases h
    · cases h
  | write i =>
    simp only [step] at h
    split at h
    · next hp => cases h; exact .write1 hp
    · next hp => cases h; exact .write2 hp
    · cases h
  | read i =>
    simp only [step] at h
    split at h
    · next hp => cases h; exact .read1 hp
    · next hp => cases h; exact .read2 hp
    · cases h

theorem Later.ind {ok : WSt T D → Act T D → Prop} {σ : WSt T D} {P : WSt T D → Prop} (h0 : P σ)
    (hs : ∀ a b, P a → Eff tyFirst can a b → P b) {σ' : WSt T D} (h : Later tyFirst can ok σ σ') : P σ' := by
  induction h with
  | refl => exact h0
  | step a _ _ hstep ih => exact hs _ _ ih (eff_of_step hstep)

@[simp] theorem goto_pc (σ : WSt T D) (i j : Nat) (p : Pc T D) :
    (σ.goto i p).pc j = if j = i then p else σ.pc j := rfl
@[simp] theorem goto_ty (σ : WSt T D) (i : Nat) (p : Pc T D) : (σ.goto i p).ty = σ.ty := rfl
@[simp] theorem goto_data (σ : WSt T D) (i : Nat) (p : Pc T D) : (σ.goto i p).data = σ.data := rfl
@[simp] theorem goto_log (σ : WSt T D) (i : Nat) (p : Pc T D) : (σ.goto i p).log = σ.log := rfl
@[simp] theorem say_pc (σ : WSt T D) (e : Ev T D) : (σ.say e).pc = σ.pc := rfl
@[simp] theorem say_ty (σ : WSt T D) (e : Ev T D) : (σ.say e).ty = σ.ty := rfl
@[simp] theorem say_data (σ : WSt T D) (e : Ev T D) : (σ.say e).data = σ.data := rfl
@[simp] theorem say_log (σ : WSt T D) (e : Ev T D) : (σ.say e).log = σ.log ++ [e] := rfl
@[simp] theorem word_pc (σ : WSt T D) (b : Bool) (v : Option (T × D)) : (σ.word b v).pc = σ.pc := by cases b <;> rfl
@[simp] theorem word_log (σ : WSt T D) (b : Bool) (v : Option (T × D)) : (σ.word b v).log = σ.log := by cases b <;> rfl
theorem word_ty (σ : WSt T D) (b : Bool) (v : Option (T × D)) :
    (σ.word b v).ty = if b then v.map (·.1) else σ.ty := by cases b <;> rfl
theorem word_data (σ : WSt T D) (b : Bool) (v : Option (T × D)) :
    (σ.word b v).data = if b then σ.data else v.map (·.2) := by cases b <;> rfl

/-! ## Every word comes from an evaluation -/

/-- The words in the heap come from evaluations. -/
structure Honest (can : Option (T × D) → Prop) (σ : WSt T D) : Prop where
  ty : ∀ t, σ.ty = some t → ∃ i d, .got i (some (t, d)) ∈ σ.log
  data : ∀ d, σ.data = some d → ∃ i t, .got i (some (t, d)) ∈ σ.log
  pc : ∀ i, match σ.pc i with
    | .storing v => .got i v ∈ σ.log
    | .halfway v => .got i v ∈ σ.log
    | .half (some t) => ∃ i d, .got i (some (t, d)) ∈ σ.log
    | .evaluating => .evaluating i ∈ σ.log
    | _ => True
  got : ∀ i v, .got i v ∈ σ.log → can v ∧ .evaluating i ∈ σ.log
  retTy : ∀ i t d, .returned i (some t) d ∈ σ.log → ∃ j d', .got j (some (t, d')) ∈ σ.log
  retData : ∀ i t d, .returned i t (some d) ∈ σ.log → ∃ j t', .got j (some (t', d)) ∈ σ.log

theorem honest_step {σ σ' : WSt T D} (h : Honest can σ) (e : Eff tyFirst can σ σ') : Honest can σ' := by
  obtain ⟨h1, h2, h3, h4, h5, h6⟩ := h
  cases e with
  | @hit i t hp ht =>
    refine ⟨h1, h2, fun j => ?_, h4, h5, h6⟩
    by_cases hj : j = i
    · simp [hj]
    · simpa [hj] using h3 j
  | @start i hp ht =>
    refine ⟨by simpa using h1, by simpa using h2, fun j => ?_, ?_, by simpa using h5, by simpa using h6⟩
    · by_cases hj : j = i
      · simp [hj]
      · have := h3 j
        simp only [say_pc, goto_pc, hj, if_false, say_log, goto_log, List.mem_append, List.mem_singleton]
        revert this; cases σ.pc j with
        | half t => cases t <;> simp
        | _ => simp_all
    · intro j v h
      simp only [say_log, goto_log, List.mem_append, List.mem_singleton, reduceCtorEq, or_false] at h
      exact ⟨(h4 j v h).1, by simp [(h4 j v h).2]⟩
  | @yield i v hp hv =>
    have hm : ∀ e, e ∈ σ.log → e ∈ σ.log ++ [Ev.got i v] := fun e h => by simp [h]
    have hev : Ev.evaluating i ∈ σ.log := by have := h3 i; rw [hp] at this; exact this
    refine ⟨fun t h => ?_, fun d h => ?_, fun j => ?_, fun j v' h => ?_, fun j t d h => ?_, fun j t d h => ?_⟩
    · obtain ⟨j, d, hd⟩ := h1 t h; exact ⟨j, d, hm _ hd⟩
    · obtain ⟨j, d, hd⟩ := h2 d h; exact ⟨j, d, hm _ hd⟩
    · by_cases hj : j = i
      · simp [hj]
      · have := h3 j
        simp only [say_pc, goto_pc, hj, if_false, say_log, goto_log]
        revert this; cases σ.pc j with
        | half t => cases t with
          | none => simp
          | some t => rintro ⟨k, d, hd⟩; exact ⟨k, d, hm _ hd⟩
        | idle => simp
        | reading => simp
        | evaluating => exact hm _
        | storing v => exact hm _
        | halfway v => exact hm _
    · simp only [say_log, goto_log, List.mem_append, List.mem_singleton] at h
      rcases h with h | h
      · exact ⟨(h4 j v' h).1, hm _ (h4 j v' h).2⟩
      · cases h; exact ⟨hv, hm _ hev⟩
    · simp only [say_log, goto_log, List.mem_append, List.mem_singleton, reduceCtorEq, or_false] at h
      obtain ⟨k, d', hd⟩ := h5 j t d h; exact ⟨k, d', hm _ hd⟩
    · simp only [say_log, goto_log, List.mem_append, List.mem_singleton, reduceCtorEq, or_false] at h
      obtain ⟨k, d', hd⟩ := h6 j t d h; exact ⟨k, d', hm _ hd⟩
  | @write1 i v hp =>
    have hg : Ev.got i v ∈ σ.log := by have := h3 i; rw [hp] at this; exact this
    refine ⟨fun t h => ?_, fun d h => ?_, fun j => ?_, by simpa using h4, by simpa using h5, by simpa using h6⟩
    · simp only [goto_ty, word_ty] at h
      simp only [goto_log, word_log]
      split at h
      · cases v with
        | none => cases h
        | some p => cases h; exact ⟨i, p.2, hg⟩
      · exact h1 t h
    · simp only [goto_data, word_data] at h
      simp only [goto_log, word_log]
      split at h
      · exact h2 d h
      · cases v with
        | none => cases h
        | some p => cases h; exact ⟨i, p.1, hg⟩
    · by_cases hj : j = i
      · simp [hj, hg]
      · simpa [hj] using h3 j
  | @write2 i v hp =>
    have hg : Ev.got i v ∈ σ.log := by have := h3 i; rw [hp] at this; exact this
    refine ⟨fun t h => ?_, fun d h => ?_, fun j => ?_, by simpa using h4, by simpa using h5, by simpa using h6⟩
    · simp only [goto_ty, word_ty] at h
      simp only [goto_log, word_log]
      split at h
      · cases v with
        | none => cases h
        | some p => cases h; exact ⟨i, p.2, hg⟩
      · exact h1 t h
    · simp only [goto_data, word_data] at h
      simp only [goto_log, word_log]
      split at h
      · exact h2 d h
      · cases v with
        | none => cases h
        | some p => cases h; exact ⟨i, p.1, hg⟩
    · by_cases hj : j = i
      · simp [hj]
      · simpa [hj] using h3 j
  | @read1 i hp =>
    refine ⟨h1, h2, fun j => ?_, h4, h5, h6⟩
    by_cases hj : j = i
    · simp only [goto_pc, hj, if_true, goto_log]
      cases ht : σ.ty with
      | none => trivial
      | some t => exact h1 t ht
    · simpa [hj] using h3 j
  | @read2 i t hp =>
    have hm : ∀ e, e ∈ σ.log → e ∈ σ.log ++ [Ev.returned i t σ.data] := fun e h => by simp [h]
    refine ⟨fun t h => ?_, fun d h => ?_, fun j => ?_, fun j v' h => ?_, fun j t' d h => ?_, fun j t' d h => ?_⟩
    · obtain ⟨j, d, hd⟩ := h1 t h; exact ⟨j, d, hm _ hd⟩
    · obtain ⟨j, d, hd⟩ := h2 d h; exact ⟨j, d, hm _ hd⟩
    · by_cases hj : j = i
      · simp [hj]
      · have := h3 j
        simp only [say_pc, goto_pc, hj, if_false, say_log, goto_log]
        revert this; cases σ.pc j with
        | half t => cases t with
          | none => simp
          | some t => rintro ⟨k, d, hd⟩; exact ⟨k, d, hm _ hd⟩
        | idle => simp
        | reading => simp
        | evaluating => exact hm _
        | storing v => exact hm _
        | halfway v => exact hm _
    · simp only [say_log, goto_log, List.mem_append, List.mem_singleton, reduceCtorEq, or_false] at h
      exact ⟨(h4 j v' h).1, hm _ (h4 j v' h).2⟩
    · simp only [say_log, goto_log, List.mem_append, List.mem_singleton] at h
      rcases h with h | h
      · obtain ⟨k, d', hd⟩ := h5 j t' d h; exact ⟨k, d', hm _ hd⟩
      · cases h
        have := h3 i; rw [hp] at this
        obtain ⟨k, d', hd⟩ := this; exact ⟨k, d', hm _ hd⟩
    · simp only [say_log, goto_log, List.mem_append, List.mem_singleton] at h
      rcases h with h | h
      · obtain ⟨k, d', hd⟩ := h6 j t' d h; exact ⟨k, d', hm _ hd⟩
      · injection h with _ _ h
        obtain ⟨k, d', hd⟩ := h2 d h.symm; exact ⟨k, d', hm _ hd⟩

theorem honest_init : Honest can (WSt.init : WSt T D) := by
  constructor <;> simp [WSt.init]

/-- C90, what holds on every schedule: the type and the data of what `Reduce` returns each belong to a value that
an evaluation of the expression gave, though not always to the same one. -/
theorem C90_words {σ : WSt T D} (h : Later tyFirst can anyStep WSt.init σ) :
    (∀ i t d, .returned i (some t) d ∈ σ.log → ∃ j d', .got j (some (t, d')) ∈ σ.log ∧ can (some (t, d'))) ∧
    (∀ i t d, .returned i t (some d) ∈ σ.log → ∃ j t', .got j (some (t', d)) ∈ σ.log ∧ can (some (t', d))) := by
  have hh := Later.ind (P := Honest can) honest_init (fun a b => honest_step) h
  refine ⟨fun i t d hr => ?_, fun i t d hr => ?_⟩
  · obtain ⟨j, d', hd⟩ := hh.retTy i t d hr; exact ⟨j, d', hd, (hh.got _ _ hd).1⟩
  · obtain ⟨j, d', hd⟩ := hh.retData i t d hr; exact ⟨j, d', hd, (hh.got _ _ hd).1⟩

/-! ## One value, written with the type last -/

/-- The field and the goroutines when only one value is possible. -/
structure OneVal (t : T) (d : D) (σ : WSt T D) : Prop where
  ty : σ.ty = none ∨ (σ.ty = some t ∧ σ.data = some d)
  data : σ.data = none ∨ σ.data = some d
  pc : ∀ i, match σ.pc i with
    | .storing v => v = some (t, d)
    | .halfway v => v = some (t, d) ∧ σ.data = some d
    | .reading => σ.ty = some t
    | .half x => x = some t ∧ σ.data = some d
    | _ => True
  ret : ∀ i x y, .returned i x y ∈ σ.log → x = some t ∧ y = some d

theorem oneVal_step {t : T} {d : D} (hc : ∀ v, can v → v = some (t, d)) {σ σ' : WSt T D} (h : OneVal t d σ)
    (e : Eff false can σ σ') : OneVal t d σ' := by
  obtain ⟨h1, h2, h3, h4⟩ := h
  have pcs : ∀ (i j : Nat) (p : Pc T D), j ≠ i → (σ.goto i p).pc j = σ.pc j := fun i j p hj => by simp [hj]
  cases e with
  | @hit i t' hp ht =>
    refine ⟨h1, h2, fun j => ?_, h4⟩
    by_cases hj : j = i
    · simp only [goto_pc, hj, if_true, goto_ty]
      rcases h1 with h1 | h1
      · rw [h1] at ht; cases ht
      · exact h1.1
    · simpa [hj] using h3 j
  | @start i hp ht =>
    refine ⟨h1, h2, fun j => ?_, by simpa using h4⟩
    by_cases hj : j = i
    · simp [hj]
    · simpa [hj] using h3 j
  | @yield i v hp hv =>
    refine ⟨h1, h2, fun j => ?_, by simpa using h4⟩
    by_cases hj : j = i
    · simpa [hj] using hc v hv
    · simpa [hj] using h3 j
  | @write1 i v hp =>
    have hv : v = some (t, d) := by have := h3 i; rw [hp] at this; exact this
    subst hv
    refine ⟨?_, .inr (by simp [word_data]), fun j => ?_, by simpa using h4⟩
    · simp only [goto_ty, word_ty, goto_data, word_data, Bool.false_eq_true, if_false, Option.map_some]
      rcases h1 with h1 | h1
      · exact .inl h1
      · exact .inr (by simp [h1.1])
    · by_cases hj : j = i
      · simp [hj, word_data]
      · have := h3 j
        simp only [goto_pc, hj, if_false, word_pc, goto_ty, word_ty, goto_data, word_data, Bool.false_eq_true,
          Option.map_some]
        revert this; cases σ.pc j <;> simp_all
  | @write2 i v hp =>
    have hv := h3 i
    rw [hp] at hv
    obtain ⟨rfl, hd⟩ := hv
    refine ⟨.inr (by simp [word_ty, word_data, hd]), .inr (by simp [word_data, hd]), fun j => ?_, by simpa using h4⟩
    by_cases hj : j = i
    · simp [hj, word_ty]
    · have := h3 j
      simp only [goto_pc, hj, if_false, word_pc, goto_ty, word_ty, goto_data, word_data, Bool.not_false, if_true,
        Option.map_some]
      revert this; cases σ.pc j <;> simp_all
  | @read1 i hp =>
    have ht : σ.ty = some t := by have := h3 i; rw [hp] at this; exact this
    refine ⟨h1, h2, fun j => ?_, h4⟩
    by_cases hj : j = i
    · simp only [goto_pc, hj, if_true, goto_data]
      rcases h1 with h1 | h1
      · rw [h1] at ht; cases ht
      · exact h1
    · simpa [hj] using h3 j
  | @read2 i x hp =>
    have hx := h3 i
    rw [hp] at hx
    refine ⟨h1, h2, fun j => ?_, fun j x' y' h => ?_⟩
    · by_cases hj : j = i
      · simp [hj]
      · simpa [hj] using h3 j
    · simp only [say_log, goto_log, List.mem_append, List.mem_singleton] at h
      rcases h with h | h
      · exact h4 j x' y' h
      · cases h; exact hx

/-- C90 on every schedule, if the expression always gives the same value, not nil, and the type word is written
after the data word: `Reduce` returns this value to every caller. -/
theorem C90_one_value_partial {t : T} {d : D} (hc : ∀ v, can v → v = some (t, d)) {σ : WSt T D}
    (h : Later false can anyStep WSt.init σ) {i : Nat} {x : Option T} {y : Option D}
    (hr : .returned i x y ∈ σ.log) : x = some t ∧ y = some d :=
  (Later.ind (P := OneVal t d) ⟨.inl rfl, .inl rfl, fun _ => by simp [WSt.init], by simp [WSt.init]⟩
    (fun a b => oneVal_step hc) h).ret _ _ _ hr

/-! ## After the value is stored -/

/-- A value is in the field and nobody is about to write another one. -/
structure Settled (t : T) (d : D) (σ : WSt T D) : Prop where
  ty : σ.ty = some t
  data : σ.data = some d
  pc : ∀ i, σ.pc i = .idle ∨ σ.pc i = .reading ∨ σ.pc i = .half (some t)

theorem settled_step {t : T} {d : D} {σ σ' : WSt T D} (h : Settled t d σ) (e : Eff tyFirst can σ σ') :
    Settled t d σ' ∧ (σ'.log = σ.log ∨ ∃ i, σ'.log = σ.log ++ [.returned i (some t) (some d)]) := by
  obtain ⟨h1, h2, h3⟩ := h
  have put : ∀ (i : Nat) (p : Pc T D), (p = .idle ∨ p = .reading ∨ p = .half (some t)) →
      ∀ j, (σ.goto i p).pc j = .idle ∨ (σ.goto i p).pc j = .reading ∨ (σ.goto i p).pc j = .half (some t) := by
    intro i p hp j
    simp only [goto_pc]
    split
    · exact hp
    · exact h3 j
  cases e with
  | @hit i t' hp ht => exact ⟨⟨h1, h2, put _ _ (by simp)⟩, .inl rfl⟩
  | @start i hp ht => rw [h1] at ht; cases ht
  | @yield i v hp hv => have := h3 i; simp [hp] at this
  | @write1 i v hp => have := h3 i; simp [hp] at this
  | @write2 i v hp => have := h3 i; simp [hp] at this
  | @read1 i hp => exact ⟨⟨h1, h2, put _ _ (by simp [h1])⟩, .inl rfl⟩
  | @read2 i x hp =>
    have hx : x = some t := by have := h3 i; simpa [hp] using this
    subst hx
    exact ⟨⟨h1, h2, put _ _ (by simp)⟩, .inr ⟨i, by simp [h2]⟩⟩

/-- C90 once a call has returned and no other is in progress, if it left a value in the field: from then on any
number of goroutines may call `Reduce`, the expression is not evaluated any more, and all get this value. -/
theorem C90_settled {t : T} {d : D} {σ σ' : WSt T D} (ht : σ.ty = some t) (hd : σ.data = some d)
    (hi : ∀ i, σ.pc i = .idle) (h : Later tyFirst can anyStep σ σ') :
    ∃ l, σ'.log = σ.log ++ l ∧ ∀ e ∈ l, ∃ i, e = .returned i (some t) (some d) := by
  have := Later.ind (P := fun σ' => Settled t d σ' ∧ ∃ l, σ'.log = σ.log ++ l ∧
      ∀ e ∈ l, ∃ i, e = .returned i (some t) (some d))
    ⟨⟨ht, hd, fun i => .inl (hi i)⟩, [], by simp, by simp⟩ (fun a b hP e => ?_) h
  · exact this.2
  · obtain ⟨hs, l, hl, ha⟩ := hP
    obtain ⟨hs', hlog | ⟨i, hlog⟩⟩ := settled_step hs e
    · exact ⟨hs', l, hlog ▸ hl, ha⟩
    · refine ⟨hs', l ++ [.returned i (some t) (some d)], by rw [hlog, hl, List.append_assoc], ?_⟩
      intro e he
      simp only [List.mem_append, List.mem_singleton] at he
      rcases he with he | rfl
      · exact ha e he
      · exact ⟨i, rfl⟩

/-! ## One call at a time -/

/-- The values other than nil that evaluations gave, in order. -/
def gots (l : List (Ev T D)) : List (T × D) := l.filterMap fun | .got _ (some p) => some p | _ => none

/-- The number of evaluations that were begun. -/
def begun (l : List (Ev T D)) : Nat := (l.filter fun | .evaluating _ => true | _ => false).length

/-- The number of evaluations that gave nil. -/
def nils (l : List (Ev T D)) : Nat := (l.filter fun | .got _ none => true | _ => false).length

/-- The states of calls that do not overlap: goroutine `i` was the last one. -/
structure Solo (tyFirst : Bool) (i : Nat) (σ : WSt T D) : Prop where
  others : ∀ j, j ≠ i → σ.pc j = .idle
  words : ∃ v, gots σ.log = v.toList ∧ (match σ.pc i with
    | .idle => σ.ty = v.map (·.1) ∧ σ.data = v.map (·.2)
    | .evaluating => v = none ∧ σ.ty = none ∧ σ.data = none
    | .storing w => v = w ∧ σ.ty = none ∧ σ.data = none
    | .halfway w => v = w ∧ (if tyFirst then σ.ty = v.map (·.1) ∧ σ.data = none else σ.ty = none ∧ σ.data = v.map (·.2))
    | .reading => σ.ty = v.map (·.1) ∧ σ.data = v.map (·.2)
    | .half t => t = v.map (·.1) ∧ σ.ty = v.map (·.1) ∧ σ.data = v.map (·.2))
  count : begun σ.log = (gots σ.log).length + nils σ.log + (match σ.pc i with | .evaluating => 1 | _ => 0)
  ret : ∀ j t d, .returned j t d ∈ σ.log →
    (t = none ∧ d = none ∧ 0 < nils σ.log) ∨ ∃ p, gots σ.log = [p] ∧ t = some p.1 ∧ d = some p.2
  nil : gots σ.log = [] → σ.pc i ≠ .idle → σ.pc i ≠ .evaluating → 0 < nils σ.log

theorem gots_app (l : List (Ev T D)) (e : Ev T D) : gots (l ++ [e]) = gots l ++ gots [e] := List.filterMap_append
theorem begun_app (l : List (Ev T D)) (e : Ev T D) : begun (l ++ [e]) = begun l + begun [e] := by
  simp [begun, List.filter_append]
theorem nils_app (l : List (Ev T D)) (e : Ev T D) : nils (l ++ [e]) = nils l + nils [e] := by
  simp [nils, List.filter_append]

theorem solo_step {i : Nat} {σ σ' : WSt T D} {a : Act T D} (h : Solo tyFirst i σ) (ok : alone σ a)
    (hs : step tyFirst can σ a = some σ') : ∃ i, Solo tyFirst i σ' := by
  obtain ⟨h1, ⟨v, hv, h2⟩, h3, h4, h5⟩ := h
  have who : ∀ k, σ.pc k ≠ .idle → k = i := fun k hk => Decidable.byContradiction fun hne => hk (h1 k hne)
  have oth : ∀ p j, j ≠ i → (σ.goto i p).pc j = .idle := fun p j hj => by simp [hj, h1 j hj]
  cases a with
  | ask k =>
    have hi := ok i
    rw [hi] at h2 h3
    have hk : σ.pc k = .idle := ok k
    simp only [step, hk] at hs
    cases ht : σ.ty with
    | some t =>
      rw [ht] at hs
      cases hs
      refine ⟨k, fun j hj => by simp [hj, ok j], ⟨v, hv, by simpa using h2⟩, by simpa using h3, h4, ?_⟩
      intro hg
      have hn : v = none := by rw [goto_log, hv] at hg; cases v <;> simp_all
      rw [hn, ht] at h2; simp at h2
    | none =>
      rw [ht] at hs
      cases hs
      have hn : v = none := by
        rw [ht] at h2
        cases v with
        | none => rfl
        | some p => simp at h2
      subst hn
      refine ⟨k, fun j hj => by simp [hj, ok j], ⟨none, ?_, ?_⟩, ?_, ?_, ?_⟩
      · rw [say_log, goto_log, gots_app, hv]; rfl
      · simpa using h2
      · simp only [say_log, goto_log, gots_app, begun_app, nils_app, say_pc, goto_pc, if_true]
        simp only [gots, begun, nils] at h3 ⊢
        simp; simp at h3; omega
      · intro j t d hr
        simp only [say_log, goto_log, List.mem_append, List.mem_singleton, reduceCtorEq, or_false] at hr
        simp only [say_log, goto_log, gots_app, nils_app]
        simpa [gots, nils] using h4 j t d hr
      · simp
  | yield k w =>
    simp only [step] at hs
    split at hs
    next hp =>
      obtain rfl := who k (by rw [hp]; simp)
      split at hs
      · next hw =>
        cases hs
        rw [hp] at h2 h3
        obtain ⟨rfl, hty, hda⟩ := h2
        have hnr : ∀ j t d, Ev.returned j t d ∈ σ.log → t = none ∧ d = none ∧ 0 < nils σ.log := by
          intro j t d hr
          rcases h4 j t d hr with h | ⟨p, h, _⟩
          · exact h
          · rw [hv] at h; cases h
        refine ⟨k, oth _, ⟨w, ?_, ?_⟩, ?_, ?_, ?_⟩
        · simp only [say_log, goto_log, gots_app, hv]
          cases w <;> simp [gots]
        · simp [hty, hda]
        · simp only [say_log, goto_log, gots_app, begun_app, nils_app, say_pc, goto_pc, if_true, hv]
          rw [hv] at h3
          cases w with
          | none => simp [gots, begun, nils] at h3 ⊢; omega
          | some p => simp [gots, begun, nils] at h3 ⊢; omega
        · intro j t d hr
          simp only [say_log, goto_log, List.mem_append, List.mem_singleton, reduceCtorEq, or_false] at hr
          obtain ⟨a, b, c⟩ := hnr j t d hr
          exact .inl ⟨a, b, by simp only [say_log, goto_log, nils_app]; omega⟩
        · intro hg _ _
          simp only [say_log, goto_log, gots_app, nils_app, hv] at hg ⊢
          cases w with
          | none => simp [nils]
          | some p => simp [gots] at hg
      · cases hs
    · cases hs
  | write k =>
    simp only [step] at hs
    split at hs
    · next w hp =>
      obtain rfl := who k (by rw [hp]; simp)
      cases hs
      rw [hp] at h2 h3
      obtain ⟨rfl, hty, hda⟩ := h2
      refine ⟨k, by simpa using oth (.halfway v), ⟨v, by simpa using hv, ?_⟩, by simpa using h3, by simpa using h4,
        fun hg _ _ => by simpa using h5 (by simpa using hg) (by simp [hp]) (by simp [hp])⟩
      cases tyFirst <;> simp [word_ty, word_data, hty, hda]
    · next w hp =>
      obtain rfl := who k (by rw [hp]; simp)
      cases hs
      rw [hp] at h2 h3
      obtain ⟨rfl, hw⟩ := h2
      refine ⟨k, by simpa using oth .reading, ⟨v, by simpa using hv, ?_⟩, by simpa using h3, by simpa using h4, ?_⟩
      · cases tyFirst <;> simp_all [word_ty, word_data]
      · exact fun hg _ _ => by simpa using h5 (by simpa using hg) (by simp [hp]) (by simp [hp])
    · cases hs
  | read k =>
    simp only [step] at hs
    split at hs
    · next hp =>
      obtain rfl := who k (by rw [hp]; simp)
      cases hs
      rw [hp] at h2 h3
      refine ⟨k, oth _, ⟨v, by simpa using hv, by simpa using h2⟩, by simpa using h3, h4, 
        fun hg _ _ => h5 hg (by simp [hp]) (by simp [hp])⟩
    · next t hp =>
      obtain rfl := who k (by rw [hp]; simp)
      cases hs
      rw [hp] at h2 h3
      obtain ⟨rfl, h2⟩ := h2
      refine ⟨k, oth _, ⟨v, ?_, by simpa using h2⟩, ?_, ?_, by simp⟩
      · rw [say_log, goto_log, gots_app, hv]; cases v <;> rfl
      · simp only [say_log, goto_log, gots_app, begun_app, nils_app, say_pc, goto_pc, if_true]
        simp [gots, begun, nils] at h3 ⊢
        omega
      · intro j t d hr
        simp only [say_log, goto_log, List.mem_append, List.mem_singleton] at hr
        simp only [say_log, goto_log, gots_app, nils_app]
        rcases hr with hr | hr
        · simpa [gots, nils] using h4 j t d hr
        · injection hr with _ ht hd
          subst ht hd
          cases v with
          | none =>
            refine .inl ⟨rfl, h2.2, ?_⟩
            have := h5 (by simpa using hv) (by simp [hp]) (by simp [hp])
            omega
          | some p =>
            refine .inr ⟨p, ?_, rfl, h2.2⟩
            rw [hv]; simp [gots]
    · cases hs

/-- C90 if the calls do not overlap, whoever makes them: at most one evaluation gives a value other than nil, every call
that returns after it returns this value, and the expression is evaluated again only as long as it gives nil. -/
theorem C90_alone_partial {σ : WSt T D} (h : Later tyFirst can alone WSt.init σ) :
    (gots σ.log).length ≤ 1 ∧ begun σ.log ≤ nils σ.log + 1 ∧
    ∀ i t d, .returned i t d ∈ σ.log →
      (t = none ∧ d = none ∧ 0 < nils σ.log) ∨ ∃ p, gots σ.log = [p] ∧ t = some p.1 ∧ d = some p.2 := by
  have : ∃ i, Solo tyFirst i σ := by
    induction h with
    | refl =>
      refine ⟨0, fun _ _ => rfl, ⟨none, rfl, rfl, rfl⟩, rfl, ?_, ?_⟩ <;> simp [WSt.init]
    | step a _ ok hs ih => obtain ⟨i, hi⟩ := ih; exact solo_step hi ok hs
  obtain ⟨i, h1, ⟨v, hv, h2⟩, h3, h4, h5⟩ := this
  refine ⟨by rw [hv]; cases v <;> simp, ?_, h4⟩
  rw [h3, hv]
  cases hp : σ.pc i with
  | evaluating =>
    rw [hp] at h2
    obtain ⟨rfl, _⟩ := h2
    simp
    try omega
  | _ => cases v <;> simp <;> omega

/-- C90, nobody waits: a goroutine in `Reduce` can go on whatever the others do; only the evaluation of the expression
takes as long as it takes. -/
theorem C90_no_waiting {v : Option (T × D)} (hv : can v) (σ : WSt T D) (i : Nat) : ∃ a σ', step tyFirst can σ a = some σ' ∧
    (match a with | .ask j => j | .yield j _ => j | .write j => j | .read j => j) = i := by
  have fin : ∀ {a : Act T D} {o : Option (WSt T D)}, step tyFirst can σ a = o → o.isSome = true →
      (match a with | .ask j => j | .yield j _ => j | .write j => j | .read j => j) = i →
      ∃ a σ', step tyFirst can σ a = some σ' ∧
        (match a with | .ask j => j | .yield j _ => j | .write j => j | .read j => j) = i := by
    intro a o h1 h2 h3
    obtain ⟨σ', hσ⟩ := Option.isSome_iff_exists.1 h2
    exact ⟨a, σ', h1.trans hσ, h3⟩
  cases hp : σ.pc i with
  | idle => exact fin (a := .ask i) rfl (by simp only [step, hp]; cases σ.ty <;> rfl) rfl
  | evaluating => exact fin (a := .yield i v) rfl (by simp only [step, hp, hv, if_true]; rfl) rfl
  | storing v => exact fin (a := .write i) rfl (by simp only [step, hp]; rfl) rfl
  | halfway v => exact fin (a := .write i) rfl (by simp only [step, hp]; rfl) rfl
  | reading => exact fin (a := .read i) rfl (by simp only [step, hp]; rfl) rfl
  | half t => exact fin (a := .read i) rfl (by simp only [step, hp]; rfl) rfl

theorem later_of_runs {as : List (Act T D)} {σ σ0 σ' : WSt T D} (h0 : Later tyFirst can anyStep σ σ0)
    (h : runs tyFirst can σ0 as = some σ') : Later tyFirst can anyStep σ σ' := by
  induction as generalizing σ0 with
  | nil => cases h; exact h0
  | cons a as ih =>
    simp only [runs, Option.bind_eq_some_iff] at h
    obtain ⟨σ1, h1, h2⟩ := h
    exact ih (.step a h0 trivial h1) h2

end

/-- The end of a run of given steps. -/
def endOf (tyFirst : Bool) (can : Option (Nat × Nat) → Prop) [DecidablePred can] (as : List (Act Nat Nat)) : WSt Nat Nat :=
  (runs tyFirst can WSt.init as).getD WSt.init

theorem endOf_later {tyFirst : Bool} {can : Option (Nat × Nat) → Prop} [DecidablePred can] {as : List (Act Nat Nat)}
    (h : (runs tyFirst can WSt.init as).isSome = true) : Later tyFirst can anyStep WSt.init (endOf tyFirst can as) :=
  later_of_runs .refl (by unfold endOf; cases hr : runs tyFirst can WSt.init as <;> simp_all)

/-- C90, calls that overlap: a value that no evaluation gave is returned, with the type of one and the data of another one,
whichever word is written first; here 1 and 2 are types and 10 and 20 data. -/
theorem C90_torn_refuted (tyFirst : Bool) : ∃ σ : WSt Nat Nat,
    Later tyFirst (fun v => v = some (1, 10) ∨ v = some (2, 20)) anyStep WSt.init σ ∧
    ∃ i t d, .returned i (some t) (some d) ∈ σ.log ∧ ∀ j, .got j (some (t, d)) ∉ σ.log := by
  let as : List (Act Nat Nat) := [.ask 0, .ask 1, .yield 0 (some (1, 10)), .yield 1 (some (2, 20)), .write 0, .write 0,
    .read 0, .write 1, .write 1, .read 0]
  refine ⟨endOf tyFirst (fun v => v = some (1, 10) ∨ v = some (2, 20)) as, endOf_later ?_, 0, 1, 20, ?_, ?_⟩
  · cases tyFirst <;> decide +kernel
  · cases tyFirst <;> simp [endOf, as, runs, step, WSt.init, WSt.goto, WSt.say, WSt.word]
  · cases tyFirst <;> simp [endOf, as, runs, step, WSt.init, WSt.goto, WSt.say, WSt.word]

/-- C90, calls that overlap: even if the expression has only one value, a caller is given its type without its data when the
type word is written first. -/
theorem C90_half_refuted : ∃ σ : WSt Nat Nat, Later true (fun v => v = some (1, 10)) anyStep WSt.init σ ∧
    ∃ i, .returned i (some 1) none ∈ σ.log := by
  let as : List (Act Nat Nat) := [.ask 0, .yield 0 (some (1, 10)), .write 0, .ask 1, .read 1, .read 1]
  refine ⟨endOf true (fun v => v = some (1, 10)) as, endOf_later (by decide +kernel), 1, ?_⟩
  simp [endOf, as, runs, step, WSt.init, WSt.goto, WSt.say, WSt.word]

/-- C90: the expression is evaluated twice by calls that overlap, and they return different values. -/
theorem C90_once_refuted (tyFirst : Bool) : ∃ σ : WSt Nat Nat,
    Later tyFirst (fun v => v = some (1, 10) ∨ v = some (1, 20)) anyStep WSt.init σ ∧ begun σ.log = 2 ∧
    .returned 0 (some 1) (some 10) ∈ σ.log ∧ .returned 1 (some 1) (some 20) ∈ σ.log := by
  let as : List (Act Nat Nat) := [.ask 0, .ask 1, .yield 0 (some (1, 10)), .yield 1 (some (1, 20)), .write 0, .write 0,
    .read 0, .read 0, .write 1, .write 1, .read 1, .read 1]
  refine ⟨endOf tyFirst (fun v => v = some (1, 10) ∨ v = some (1, 20)) as, endOf_later ?_, ?_, ?_, ?_⟩
  · cases tyFirst <;> decide +kernel
  · cases tyFirst <;> simp [endOf, as, runs, step, WSt.init, WSt.goto, WSt.say, WSt.word, begun]
  · cases tyFirst <;> simp [endOf, as, runs, step, WSt.init, WSt.goto, WSt.say, WSt.word]
  · cases tyFirst <;> simp [endOf, as, runs, step, WSt.init, WSt.goto, WSt.say, WSt.word]

/-- C90: an expression that gives nil is evaluated each time, also by calls one after the other. -/
theorem C90_nil_refuted (tyFirst : Bool) : ∃ σ : WSt Nat Nat,
    Later tyFirst (fun v => v = none) alone WSt.init σ ∧ begun σ.log = 2 := by
  cases tyFirst
  all_goals
    refine ⟨_, .step (.ask 0) (.step (.read 0) (.step (.read 0) (.step (.write 0) (.step (.write 0) (.step (.yield 0 none)
      (.step (.ask 0) .refl (fun _ => rfl) rfl) trivial rfl) trivial rfl) trivial rfl) trivial rfl) trivial rfl)
      (fun j => ?_) rfl, rfl⟩
    by_cases hj : j = 0 <;> simp [hj, WSt.goto, WSt.say, WSt.word, WSt.init]

/-! ## Examples -/

/-- A goroutine calls, then two others at the same time. -/
def calls : List (Act Nat Nat) := [.ask 0, .yield 0 (some (1, 10)), .write 0, .write 0, .read 0, .read 0,
  .ask 1, .ask 2, .read 2, .read 1, .read 1, .read 2]

example : (runs true (fun v => v = some (1, 10)) WSt.init calls).isSome = true := by decide +kernel
example : (endOf false (fun v => v = some (1, 10)) calls).log =
    [.evaluating 0, .got 0 (some (1, 10)), .returned 0 (some 1) (some 10), .returned 1 (some 1) (some 10),
      .returned 2 (some 1) (some 10)] := by
  simp [endOf, calls, runs, step, WSt.init, WSt.goto, WSt.say, WSt.word]

end Vfilter.LazyWord
