import Verif.Explain
/-!
# C77: EXPLAIN reports what the query does
-/
set_option linter.all false

namespace Vfilter.Expl

variable {R O : Type}

/-! ## Reading a trace -/

/-- The source rows in a trace. -/
def sources : List (Ev R O) → List R
  | [] => []
  | .source r :: es => r :: sources es
  | .start _ :: es => sources es
  | .emit _ :: es => sources es
  | .reject :: es => sources es

/-- The rows reported as emitted. -/
def emits : List (Ev R O) → List O
  | [] => []
  | .emit o :: es => o :: emits es
  | .start _ :: es => emits es
  | .source _ :: es => emits es
  | .reject :: es => emits es

/-- The number of rows reported as rejected. -/
def rejects : List (Ev R O) → Nat
  | [] => 0
  | .reject :: es => rejects es + 1
  | .start _ :: es => rejects es
  | .source _ :: es => rejects es
  | .emit _ :: es => rejects es

/-- The number of announced queries. -/
def starts : List (Ev R O) → Nat
  | [] => 0
  | .start _ :: es => starts es + 1
  | .reject :: es => starts es
  | .source _ :: es => starts es
  | .emit _ :: es => starts es

/-- What should be told about one row. -/
def story (f : R → Option O) (r : R) : List (Ev R O) :=
  match f r with
  | some o => [.source r, .emit o]
  | none => [.source r, .reject]

theorem sources_append (a b : List (Ev R O)) : sources (a ++ b) = sources a ++ sources b := by
  induction a with
  | nil => rfl
  | cons e a ih => cases e <;> simp [sources, ih]

theorem emits_append (a b : List (Ev R O)) : emits (a ++ b) = emits a ++ emits b := by
  induction a with
  | nil => rfl
  | cons e a ih => cases e <;> simp [emits, ih]

theorem rejects_append (a b : List (Ev R O)) : rejects (a ++ b) = rejects a + rejects b := by
  induction a with
  | nil => simp [rejects]
  | cons e a ih => cases e <;> simp [rejects, ih] <;> omega

theorem announce_quiet (q : Clauses) :
    sources (announce q : List (Ev R O)) = [] ∧ emits (announce q : List (Ev R O)) = [] ∧
      rejects (announce q : List (Ev R O)) = 0 := by
  rcases q with ⟨_ | n, _ | _, _ | _⟩ <;>
    simp [announce, announce.announceRest, sources, emits, rejects]

/-! ## The invariant -/

/-- `Told f c tk out ev`: of the rows `tk`, those sent are `out`, and `ev` was told; a row can be
given up in between only if `c`. -/
inductive Told (f : R → Option O) (c : Bool) : List R → List O → List (Ev R O) → Prop where
  | nil : Told f c [] [] []
  | emit {tk out ev r o} : Told f c tk out ev → f r = some o →
      Told f c (tk ++ [r]) (out ++ [o]) (ev ++ [.source r, .emit o])
  | reject {tk out ev r} : Told f c tk out ev → f r = none →
      Told f c (tk ++ [r]) out (ev ++ [.source r, .reject])
  | drop {tk out ev r o} : Told f c tk out ev → f r = some o → c = true →
      Told f c (tk ++ [r]) out (ev ++ [.source r])

theorem Told.cancel {f : R → Option O} {c tk out ev} (h : Told f c tk out ev) :
    Told f true tk out ev := by
  induction h with
  | nil => exact .nil
  | emit _ e ih => exact ih.emit e
  | reject _ e ih => exact ih.reject e
  | drop _ e _ ih => exact ih.drop e rfl

theorem Told.sources {f : R → Option O} {c tk out ev} (h : Told f c tk out ev) :
    sources ev = tk := by
  induction h with
  | nil => rfl
  | emit _ _ ih => simp [sources_append, Expl.sources, ih]
  | reject _ _ ih => simp [sources_append, Expl.sources, ih]
  | drop _ _ _ ih => simp [sources_append, Expl.sources, ih]

theorem Told.emits {f : R → Option O} {c tk out ev} (h : Told f c tk out ev) :
    emits ev = out := by
  induction h with
  | nil => rfl
  | emit _ _ ih => simp [emits_append, Expl.emits, ih]
  | reject _ _ ih => simp [emits_append, Expl.emits, ih]
  | drop _ _ _ ih => simp [emits_append, Expl.emits, ih]

theorem Told.rejects {f : R → Option O} {c tk out ev} (h : Told f c tk out ev) :
    rejects ev = tk.countP (fun r => (f r).isNone) := by
  induction h with
  | nil => rfl
  | emit _ e ih => simp [rejects_append, Expl.rejects, ih, List.countP_append, e]
  | reject _ e ih => simp [rejects_append, Expl.rejects, ih, List.countP_append, e]
  | drop _ e _ ih => simp [rejects_append, Expl.rejects, ih, List.countP_append, e]

theorem Told.story {f : R → Option O} {c tk out ev} (h : Told f c tk out ev) (hc : c = false) :
    ev = tk.flatMap (story f) ∧ out = tk.filterMap f := by
  induction h with
  | nil => simp
  | emit _ e ih => simp [ih.1, ih.2, Expl.story, e]
  | reject _ e ih => simp [ih.1, ih.2, Expl.story, e]
  | drop _ _ h _ => rw [hc] at h; cases h

/-- Where the loop is within the story of its current row. -/
def Mid (f : R → Option O) (c : Bool) (tk : List R) (out : List O) (ev : List (Ev R O)) :
    Pc R O → Prop
  | .idle => Told f c tk out ev
  | .seen r => ∃ tk', tk = tk' ++ [r] ∧ Told f c tk' out ev
  | .work r => ∃ tk' ev', tk = tk' ++ [r] ∧ ev = ev' ++ [.source r] ∧ Told f c tk' out ev'
  | .hold o => ∃ r tk' ev', f r = some o ∧ tk = tk' ++ [r] ∧ ev = ev' ++ [.source r] ∧
      Told f c tk' out ev'
  | .sent o => ∃ r tk' ev' out', f r = some o ∧ tk = tk' ++ [r] ∧ ev = ev' ++ [.source r] ∧
      out = out' ++ [o] ∧ Told f c tk' out' ev'

structure Inv (f : R → Option O) (q : Clauses) (input : List R) (s : ESt R O) : Prop where
  mid : ∃ ev, s.evs = announce q ++ ev ∧ Mid f s.cancelled s.taken s.out ev s.pc
  pre : s.taken <+: input
  all : s.cancelled = false → s.taken ++ s.input = input
  rest : s.input = [] ∨ s.taken ++ s.input = input
  idle : s.closed = true → s.pc = .idle
  done : s.closed = true → s.cancelled = false → s.input = []

theorem inv_init (f : R → Option O) (q : Clauses) (input : List R) :
    Inv f q input (ESt.init q input) :=
  ⟨⟨[], by simp [ESt.init], .nil⟩, by simp [ESt.init], by simp [ESt.init], by simp [ESt.init],
    by simp [ESt.init], by simp [ESt.init]⟩

theorem inv_step {f : R → Option O} {q : Clauses} {input : List R} {b} {s t : ESt R O}
    (h : Inv f q input s) (st : EStep f b s t) : Inv f q input t := by
  obtain ⟨⟨ev', he, hm⟩, hp, ha, hr, hi, hd⟩ := h
  cases st with
  | @recv r rs tk out ev c =>
    have hr' : tk ++ r :: rs = input := by simpa using hr
    refine ⟨⟨ev', he, tk, rfl, hm⟩, ⟨rs, by simpa using hr'⟩, fun _ => by simpa using hr',
      .inr (by simpa using hr'), by simp, by simp⟩
  | report =>
    obtain ⟨tk', e1, ht⟩ := hm
    exact ⟨⟨_, by simp only at he ⊢; rw [he, List.append_assoc], tk', ev', e1, rfl, ht⟩, hp, ha, hr,
      by simp, by simp⟩
  | accept e =>
    obtain ⟨tk', ev0, e1, e2, ht⟩ := hm
    exact ⟨⟨ev', he, _, tk', ev0, e, e1, e2, ht⟩, hp, ha, hr, by simp, by simp⟩
  | reject e =>
    obtain ⟨tk', ev0, e1, e2, ht⟩ := hm
    refine ⟨⟨ev' ++ [.reject], by simp only at he ⊢; rw [he, List.append_assoc], ?_⟩, hp, ha, hr,
      by simp, by simp⟩
    have := ht.reject e
    simp only [Mid] at e1 e2 ⊢
    rw [e1, e2]; simpa using this
  | send =>
    obtain ⟨r, tk', ev0, e, e1, e2, ht⟩ := hm
    exact ⟨⟨ev', he, r, tk', ev0, _, e, e1, e2, rfl, ht⟩, hp, ha, hr, by simp, by simp⟩
  | @tell o rs tk out ev c =>
    obtain ⟨r, tk', ev0, out', e, e1, e2, e3, ht⟩ := hm
    refine ⟨⟨ev' ++ [.emit o], by simp only at he ⊢; rw [he, List.append_assoc], ?_⟩, hp, ha, hr,
      by simp, by simp⟩
    have := ht.emit e
    simp only [Mid] at e1 e2 e3 ⊢
    rw [e1, e2, e3]; simpa using this
  | drop =>
    obtain ⟨r, tk', ev0, e, e1, e2, ht⟩ := hm
    refine ⟨⟨ev', he, ?_⟩, hp, ha, hr, by simp, by simp⟩
    have := ht.drop e rfl
    simp only [Mid] at e1 e2 ⊢
    rw [e1, e2]; exact this
  | finish => exact ⟨⟨ev', he, hm⟩, hp, ha, hr, by simp, by simp⟩
  | abort => exact ⟨⟨ev', he, hm⟩, hp, ha, hr, by simp, by simp⟩
  | inputEnds => exact ⟨⟨ev', he, hm⟩, hp, by simp, .inl rfl, by simp, by simp⟩
  | @cancel rs pc tk out ev cl =>
    refine ⟨⟨ev', he, ?_⟩, hp, by simp, hr, hi, by simp⟩
    simp only [] at hm ⊢
    cases pc with
    | idle => exact Told.cancel hm
    | seen r => obtain ⟨a, b, c⟩ := hm; exact ⟨a, b, c.cancel⟩
    | work r => obtain ⟨a, b, c, d, e⟩ := hm; exact ⟨a, b, c, d, e.cancel⟩
    | hold o => obtain ⟨a, b, c, d, e, g, h⟩ := hm; exact ⟨a, b, c, d, e, g, h.cancel⟩
    | sent o => obtain ⟨a, b, c, d, e, g, h, i, j⟩ := hm; exact ⟨a, b, c, d, e, g, h, i, j.cancel⟩

theorem inv {f : R → Option O} {q : Clauses} {input : List R} {s : ESt R O}
    (h : Steps (EStep f) (ESt.init q input) s) : Inv f q input s := by
  generalize hi : ESt.init q input = s0 at h
  induction h with
  | refl => subst hi; exact inv_init f q input
  | tail _ st ih => exact inv_step ih st

/-! ## C77 -/

/-- **C77**, at every moment of every execution: the rows reported as coming from the source are
rows it delivered, in order and without gaps, all but perhaps the one just received; the rows
reported as emitted are those handed to the reader, in order, all but perhaps the last; and no more
rows were reported as rejected than the WHERE clause turned down. -/
theorem C77_at_any_time {f : R → Option O} {q : Clauses} {input : List R} {s : ESt R O}
    (h : Steps (EStep f) (ESt.init q input) s) :
    s.taken <+: input ∧
    (sources s.evs = s.taken ∨ ∃ r, s.taken = sources s.evs ++ [r]) ∧
    (emits s.evs = s.out ∨ ∃ o, s.out = emits s.evs ++ [o]) ∧
    (∀ o ∈ emits s.evs, ∃ r ∈ input, f r = some o) ∧
    rejects s.evs ≤ s.taken.countP (fun r => (f r).isNone) := by
  obtain ⟨⟨ev, he, hm⟩, hp, -, -, -, -⟩ := inv h
  obtain ⟨a1, a2, a3⟩ := announce_quiet (R := R) (O := O) q
  have key : ∀ {c tk out ev}, Told f c tk out ev → ∀ o ∈ out, ∃ r ∈ tk, f r = some o := by
    intro c tk out ev ht
    induction ht with
    | nil => simp
    | @emit tk out ev r o _ e ih =>
      intro o' ho
      rcases List.mem_append.1 ho with ho | ho
      · obtain ⟨r, hr, e⟩ := ih o' ho; exact ⟨r, by simp [hr], e⟩
      · simp at ho; subst ho; exact ⟨r, by simp, e⟩
    | reject _ _ ih => intro o ho; obtain ⟨r, hr, e⟩ := ih o ho; exact ⟨r, by simp [hr], e⟩
    | drop _ _ _ ih => intro o ho; obtain ⟨r, hr, e⟩ := ih o ho; exact ⟨r, by simp [hr], e⟩
  rw [he, sources_append, emits_append, rejects_append, a1, a2, a3]
  simp only [List.nil_append, Nat.zero_add]
  refine ⟨hp, ?_⟩
  have sub : ∀ {tk : List R} {o}, tk <+: input → (∃ r ∈ tk, f r = some o) → ∃ r ∈ input, f r = some o :=
    fun hp ⟨r, hr, e⟩ => ⟨r, hp.subset hr, e⟩
  cases hpc : s.pc with
  | idle =>
    rw [hpc] at hm
    have ht : Told f _ _ _ _ := hm
    refine ⟨.inl ht.sources, .inl ht.emits, fun o ho => sub hp (key ht o (ht.emits ▸ ho)), ?_⟩
    rw [ht.rejects]; exact Nat.le_refl _
  | seen r =>
    rw [hpc] at hm
    obtain ⟨tk', e1, ht⟩ := hm
    rw [e1] at hp ⊢
    refine ⟨.inr ⟨r, by rw [ht.sources]⟩, .inl ht.emits, fun o ho =>
      sub ((List.prefix_append _ _).trans hp) (key ht o (ht.emits ▸ ho)), ?_⟩
    rw [ht.rejects, List.countP_append]; omega
  | work r =>
    rw [hpc] at hm
    obtain ⟨tk', ev0, e1, e2, ht⟩ := hm
    rw [e1] at hp ⊢
    rw [e2, sources_append, emits_append, rejects_append]
    simp only [sources, emits, rejects, List.append_nil, Nat.add_zero]
    refine ⟨.inl (by rw [ht.sources]), .inl ht.emits, fun o ho =>
      sub ((List.prefix_append _ _).trans hp) (key ht o (ht.emits ▸ ho)), ?_⟩
    rw [ht.rejects, List.countP_append]; omega
  | hold o =>
    rw [hpc] at hm
    obtain ⟨r, tk', ev0, e, e1, e2, ht⟩ := hm
    rw [e1] at hp ⊢
    rw [e2, sources_append, emits_append, rejects_append]
    simp only [sources, emits, rejects, List.append_nil, Nat.add_zero]
    refine ⟨.inl (by rw [ht.sources]), .inl ht.emits, fun o ho =>
      sub ((List.prefix_append _ _).trans hp) (key ht o (ht.emits ▸ ho)), ?_⟩
    rw [ht.rejects, List.countP_append]; omega
  | sent o =>
    rw [hpc] at hm
    obtain ⟨r, tk', ev0, out', e, e1, e2, e3, ht⟩ := hm
    rw [e1] at hp ⊢
    rw [e2, e3, sources_append, emits_append, rejects_append]
    simp only [sources, emits, rejects, List.append_nil, Nat.add_zero]
    refine ⟨.inl (by rw [ht.sources]), .inr ⟨o, by rw [ht.emits]⟩, fun o ho =>
      sub ((List.prefix_append _ _).trans hp) (key ht o (ht.emits ▸ ho)), ?_⟩
    rw [ht.rejects, List.countP_append]; omega

/-- **C77**, at the end: once the output is closed and nothing was cancelled, the explainer was told
the full story of every row of the source, in order: the row, and then either the row made of it,
which the reader got, or that it was rejected. -/
theorem C77_complete {f : R → Option O} {q : Clauses} {input : List R} {s : ESt R O}
    (h : Steps (EStep f) (ESt.init q input) s) (hc : s.closed = true) (hn : s.cancelled = false) :
    s.evs = announce q ++ input.flatMap (story f) ∧ s.out = input.filterMap f := by
  obtain ⟨⟨ev, he, hm⟩, -, ha, -, hi, hd⟩ := inv h
  rw [hi hc] at hm
  have ht : Told f _ _ _ _ := hm
  have := ha hn
  rw [hd hc hn, List.append_nil] at this
  obtain ⟨e1, e2⟩ := ht.story hn
  rw [he, e1, e2, this]
  exact ⟨rfl, rfl⟩

/-- **C77**, under cancellation: even then, once the output is closed exactly the rows handed over
are reported as emitted and exactly the rows taken that fail the WHERE clause as rejected. -/
theorem C77_closed {f : R → Option O} {q : Clauses} {input : List R} {s : ESt R O}
    (h : Steps (EStep f) (ESt.init q input) s) (hc : s.closed = true) :
    sources s.evs = s.taken ∧ emits s.evs = s.out ∧
      rejects s.evs = s.taken.countP (fun r => (f r).isNone) := by
  obtain ⟨⟨ev, he, hm⟩, -, -, -, hi, -⟩ := inv h
  rw [hi hc] at hm
  have ht : Told f _ _ _ _ := hm
  obtain ⟨a1, a2, a3⟩ := announce_quiet (R := R) (O := O) q
  rw [he, sources_append, emits_append, rejects_append, a1, a2, a3]
  simp [ht.sources, ht.emits, ht.rejects]

/-! ### Explaining does not change the query -/

/-- The row that is to be sent, `none` between rows. -/
def Pc.held (f : R → Option O) : Pc R O → Option O
  | .idle => none
  | .seen r => f r
  | .work r => f r
  | .hold o => some o
  | .sent _ => none

/-- The state of the row loop without the explainer. -/
def ESt.plain (f : R → Option O) (s : ESt R O) : SelSt R O :=
  ⟨s.input, s.pc.held f, s.out, s.cancelled, s.closed⟩

theorem plain_step {f : R → Option O} {b} {s t : ESt R O} (st : EStep f b s t) :
    t.plain f = s.plain f ∨ SelStep f b (s.plain f) (t.plain f) := by
  cases st with
  | @recv r rs tk out ev c =>
    right
    cases e : f r with
    | none => simp only [ESt.plain, Pc.held, e]; exact .reject e
    | some o => simp only [ESt.plain, Pc.held, e]; exact .recv e
  | report => exact .inl rfl
  | accept e => left; simp [ESt.plain, Pc.held, e]
  | reject e => left; simp [ESt.plain, Pc.held, e]
  | send => exact .inr .send
  | tell => exact .inl rfl
  | drop => exact .inr .drop
  | finish => exact .inr .finish
  | abort => exact .inr .abort
  | inputEnds => exact .inr .inputEnds
  | cancel => exact .inr .cancel

theorem steps_trans {σ : Type} {step : By → σ → σ → Prop} {a b c : σ} (h : Steps step a b)
    (h' : Steps step b c) : Steps step a c := by
  induction h' with
  | refl => exact h
  | tail _ st ih => exact ih.tail st

/-- Between rows or sending. -/
def Pc.settled : Pc R O → Prop
  | .idle => True
  | .hold _ => True
  | _ => False

theorem lift_step {f : R → Option O} {b} {e : ESt R O} {s' : SelSt R O} (he : e.pc.settled)
    (st : SelStep f b (e.plain f) s') :
    ∃ e', Steps (EStep f) e e' ∧ e'.plain f = s' ∧ e'.pc.settled := by
  obtain ⟨inp, pc, tk, out, ev, c, cl⟩ := e
  cases pc with
  | seen r => exact he.elim
  | work r => exact he.elim
  | sent o => exact he.elim
  | idle =>
    simp only [ESt.plain, Pc.held] at st
    cases st with
    | @recv r rs _ _ o e =>
      exact ⟨⟨rs, .hold o, tk ++ [r], out, ev ++ [.source r], c, false⟩,
        ((Steps.refl.tail .recv).tail .report).tail (.accept e), rfl, trivial⟩
    | @reject r rs _ _ e =>
      exact ⟨⟨rs, .idle, tk ++ [r], out, ev ++ [.source r] ++ [.reject], c, false⟩,
        ((Steps.refl.tail .recv).tail .report).tail (.reject e), rfl, trivial⟩
    | finish => exact ⟨_, Steps.refl.tail .finish, rfl, trivial⟩
    | abort => exact ⟨_, Steps.refl.tail .abort, rfl, trivial⟩
    | inputEnds => exact ⟨_, Steps.refl.tail .inputEnds, rfl, trivial⟩
    | cancel => exact ⟨_, Steps.refl.tail .cancel, rfl, trivial⟩
  | hold o =>
    simp only [ESt.plain, Pc.held] at st
    cases st with
    | send => exact ⟨_, (Steps.refl.tail .send).tail .tell, rfl, trivial⟩
    | drop => exact ⟨_, Steps.refl.tail .drop, rfl, trivial⟩
    | inputEnds => exact ⟨_, Steps.refl.tail .inputEnds, rfl, trivial⟩
    | cancel => exact ⟨_, Steps.refl.tail .cancel, rfl, trivial⟩

/-- **C77**: apart from what the explainer is told, an explained query can do exactly what the same
query can do without an explainer. -/
theorem C77_same_query (f : R → Option O) (q : Clauses) (input : List R) (s : SelSt R O) :
    Steps (SelStep f) ⟨input, none, [], false, false⟩ s ↔
      ∃ e, Steps (EStep f) (ESt.init q input) e ∧ e.plain f = s := by
  constructor
  · intro h
    suffices ∃ e, Steps (EStep f) (ESt.init q input) e ∧ e.plain f = s ∧ e.pc.settled by
      obtain ⟨e, a, b, -⟩ := this; exact ⟨e, a, b⟩
    generalize hi : (⟨input, none, [], false, false⟩ : SelSt R O) = s0 at h
    induction h with
    | refl => subst hi; exact ⟨_, .refl, rfl, trivial⟩
    | tail _ st ih =>
      obtain ⟨e, a, b, c⟩ := ih
      subst b
      obtain ⟨e', a', b', c'⟩ := lift_step c st
      exact ⟨e', steps_trans a a', b', c'⟩
  · rintro ⟨e, h, rfl⟩
    generalize hi : (ESt.init q input : ESt R O) = s0 at h
    induction h with
    | refl => subst hi; exact .refl
    | tail _ st ih =>
      rcases plain_step st with h | h
      · rw [h]; exact ih
      · exact ih.tail h

/-- **C77**: while the explainer is to be told something, or a row is being transformed, the loop can
go on by itself. -/
theorem C77_not_held_up (f : R → Option O) (s : ESt R O) (hc : s.closed = false)
    (hp : (∃ r, s.pc = .seen r) ∨ (∃ r, s.pc = .work r) ∨ ∃ o, s.pc = .sent o) :
    ∃ t, EStep f .proc s t := by
  obtain ⟨inp, pc, tk, out, ev, c, cl⟩ := s
  simp only at hc hp
  subst hc
  rcases hp with ⟨r, rfl⟩ | ⟨r, rfl⟩ | ⟨o, rfl⟩
  · exact ⟨_, .report⟩
  · cases e : f r with
    | none => exact ⟨_, .reject e⟩
    | some o => exact ⟨_, .accept e⟩
  · exact ⟨_, .tell⟩

/-- A query with one row kept and one rejected, run to its end. -/
example : ∃ s : ESt Nat Nat,
    Steps (EStep fun n => if n = 1 then some 10 else none) (ESt.init ⟨none, false, false⟩ [1, 2]) s ∧
      s.closed = true ∧ s.cancelled = false ∧
      s.evs = [.start ⟨none, false, false⟩, .source 1, .emit 10, .source 2, .reject] :=
  ⟨_, ((((((((Steps.refl.tail .recv).tail .report).tail (.accept rfl)).tail .send).tail .tell).tail
    .recv).tail .report).tail (.reject rfl)).tail .finish, rfl, rfl, rfl⟩

/-! ### What is announced -/

/-- **C77**: the first thing the explainer is told is the query itself. -/
theorem C77_announced {f : R → Option O} {q : Clauses} {input : List R} {s : ESt R O}
    (h : Steps (EStep f) (ESt.init q input) s) : s.evs.head? = some (.start q) := by
  obtain ⟨⟨ev, he, -⟩, -⟩ := inv h
  rw [he]
  rcases q with ⟨_ | n, _ | _, _ | _⟩ <;> rfl

/-- **C77**: the number of announcements of one query: one, and one more for LIMIT and one more for
ORDER BY unless the rows are grouped. -/
theorem C77_announcements (q : Clauses) :
    starts (announce q : List (Ev R O)) =
      1 + (if q.limit.isSome then 1 else 0) + (if q.orderBy && !q.groupBy then 1 else 0) := by
  rcases q with ⟨_ | n, _ | _, _ | _⟩ <;> rfl

/-- Refuted: "one query is announced once". With LIMIT (or ORDER BY) the explainer is told of two
queries, the second without the clause, which nobody wrote. -/
theorem C77_announced_once_refuted :
    ∃ q : Clauses, ∃ q', q' ≠ q ∧ (announce q : List (Ev R O)) = [.start q, .start q'] :=
  ⟨⟨some 5, false, false⟩, ⟨none, false, false⟩, by decide, rfl⟩

/-- Refuted: "EXPLAIN reports the rows". With GROUP BY nothing is told of any row. -/
theorem C77_group_by_refuted (q : Clauses) (input : List R) :
    sources (groupEvents q input : List (Ev R O)) = [] ∧
      emits (groupEvents q input : List (Ev R O)) = [] ∧
      rejects (groupEvents q input : List (Ev R O)) = 0 :=
  announce_quiet q

/-! ### Which scopes are explained -/

/-- Number of scopes made by copying. -/
def copies : List FOp → Nat
  | [] => 0
  | .copy _ :: ops => copies ops + 1
  | .enable _ :: ops => copies ops

/-- `Explained ops t`, for a history `ops` that begins with the one scope 0: `t` was told to explain,
or copied from a scope that was to explain at that time. -/
inductive Explained : List FOp → Nat → Prop where
  | told {ops t} : t ≤ copies ops → Explained (ops ++ [.enable t]) t
  | born {ops p} : Explained ops p → Explained (ops ++ [.copy p]) (copies ops + 1)
  | still {ops op t} : Explained ops t → Explained (ops ++ [op]) t

theorem copies_append (a b : List FOp) : copies (a ++ b) = copies a + copies b := by
  induction a with
  | nil => simp [copies]
  | cons e a ih => cases e <;> simp [copies, ih] <;> omega

theorem runOps_snoc (fl : Flags) (ops : List FOp) (op : FOp) :
    runOps fl (ops ++ [op]) = FOp.apply (runOps fl ops) op := by
  simp [runOps]

theorem runOps_length (fl : Flags) (ops : List FOp) :
    (runOps fl ops).length = fl.length + copies ops := by
  induction ops generalizing fl with
  | nil => rfl
  | cons op ops ih =>
    show (runOps (FOp.apply fl op) ops).length = _
    rw [ih]
    cases op <;> simp [FOp.apply, copies] <;> omega

theorem on_lt {fl : Flags} {t : Nat} (h : fl.on t = true) : t < fl.length := by
  rcases Nat.lt_or_ge t fl.length with h' | h'
  · exact h'
  · simp [Flags.on, List.getD, List.getElem?_eq_none h'] at h

theorem on_enable (fl : Flags) (s t : Nat) :
    (FOp.apply fl (.enable s)).on t = (fl.on t || (decide (s = t) && decide (t < fl.length))) := by
  simp only [FOp.apply, Flags.on, List.getD_eq_getElem?_getD, List.getElem?_set]
  by_cases h : s = t
  · subst h
    by_cases h' : s < fl.length
    · simp [h']
    · simp [h']
  · simp [h]

theorem on_copy (fl : Flags) (s t : Nat) :
    (FOp.apply fl (.copy s)).on t = (fl.on t || (decide (t = fl.length) && fl.on s)) := by
  simp only [FOp.apply, Flags.on, List.getD_eq_getElem?_getD]
  rcases Nat.lt_trichotomy t fl.length with h | h | h
  · rw [List.getElem?_append_left h]; simp [Nat.ne_of_lt h]
  · subst h; simp
  · rw [List.getElem?_eq_none (by simp; omega), List.getElem?_eq_none (by omega)]
    simp; omega

/-- **C77**: a scope reports to the explainer exactly if it was told to, or was copied from one that
did so then; in particular telling a scope does not concern the scope it was copied from, nor copies
made before. -/
theorem C77_scopes (ops : List FOp) (t : Nat) :
    (runOps [false] ops).on t = true ↔ Explained ops t := by
  constructor
  · suffices ∀ n ops, ops.length = n → ∀ t, (runOps [false] ops).on t = true → Explained ops t from
      this _ ops rfl t
    intro n
    induction n with
    | zero =>
      intro ops h t ht
      obtain rfl := List.length_eq_zero_iff.1 h
      cases t <;> simp [runOps, Flags.on] at ht
    | succ n ih =>
      intro ops h t ht
      have hne : ops ≠ [] := by intro e; simp [e] at h
      obtain ⟨l, op, rfl⟩ : ∃ l op, ops = l ++ [op] :=
        ⟨ops.dropLast, ops.getLast hne, (List.dropLast_concat_getLast hne).symm⟩
      have hl : l.length = n := by simpa using h
      rw [runOps_snoc] at ht
      have hlen := runOps_length [false] l
      cases op with
      | enable s =>
        rw [on_enable] at ht
        simp only [Bool.or_eq_true, Bool.and_eq_true, decide_eq_true_eq] at ht
        rcases ht with ht | ⟨rfl, h2⟩
        · exact .still (ih l hl t ht)
        · refine .told ?_
          rw [hlen] at h2; simp at h2; omega
      | copy s =>
        rw [on_copy] at ht
        simp only [Bool.or_eq_true, Bool.and_eq_true, decide_eq_true_eq] at ht
        rcases ht with ht | ⟨rfl, h2⟩
        · exact .still (ih l hl t ht)
        · rw [hlen]
          have := Explained.born (ih l hl s h2)
          simpa [Nat.add_comm] using this
  · intro h
    induction h with
    | @told ops t h =>
      rw [runOps_snoc, on_enable, runOps_length]
      simp; right; omega
    | @born ops p _ ih =>
      rw [runOps_snoc, on_copy, runOps_length]
      simp [ih, Nat.add_comm]
    | @still ops op t _ ih =>
      rw [runOps_snoc]
      cases op with
      | enable s => rw [on_enable, ih]; rfl
      | copy s => rw [on_copy, ih]; rfl

/-- **C77**: running a query, with EXPLAIN or not, with whatever copies and further EXPLAINs in
scopes made on the way, leaves all scopes there were before as they were: later statements on the
same scope are not explained because of it. -/
theorem C77_other_statements (explain : Bool) (s : Nat) (fl : Flags) (ops : List FOp)
    (hops : ∀ t, FOp.enable t ∈ ops → fl.length ≤ t) (t : Nat) (ht : t < fl.length) :
    (runOps (beginQuery explain s fl) ops).on t = fl.on t := by
  have gen : ∀ (ops : List FOp) (g : Flags), (∀ t, FOp.enable t ∈ ops → fl.length ≤ t) →
      fl.length ≤ g.length → (runOps g ops).on t = g.on t := by
    intro ops
    induction ops with
    | nil => intro g _ _; rfl
    | cons op ops ih =>
      intro g h1 h2
      show (runOps (FOp.apply g op) ops).on t = _
      rw [ih _ (fun t ht => h1 t (List.mem_cons_of_mem _ ht)) (by cases op <;> simp [FOp.apply] <;> omega)]
      cases op with
      | enable p =>
        have := h1 p List.mem_cons_self
        rw [on_enable, show decide (p = t) = false by simp; omega]; simp
      | copy p => rw [on_copy, show decide (t = g.length) = false by simp; omega]; simp
  rw [gen ops _ hops (by unfold beginQuery; split <;> simp [FOp.apply])]
  unfold beginQuery
  have h1 : decide (t = fl.length) = false := by simp; omega
  have h2 : decide (fl.length = t) = false := by simp; omega
  cases explain
  · simp [on_copy, h1]
  · simp [on_enable, on_copy, h1, h2]

/-- **C77**: the query itself runs explained if it says EXPLAIN or its scope is explained. -/
theorem C77_own_scope (explain : Bool) (s : Nat) (fl : Flags) :
    (beginQuery explain s fl).on fl.length = (explain || fl.on s) := by
  have h : fl.on fl.length = false := by simp [Flags.on, List.getD]
  cases explain
  · simp [beginQuery, on_copy, h]
  · simp [beginQuery, on_enable, FOp.apply]
    simp [Flags.on, List.getD]

example : (runOps (beginQuery true 0 [false]) [.copy 1, .copy 0]) = [false, true, true, false] := by
  decide

/-! ### What is logged -/

theorem sprintf0_plain (s : Str) (h : 37 ∉ s) : sprintf0 s = s := by
  induction s with
  | nil => simp [sprintf0]
  | cons c s ih =>
    have h1 : c ≠ 37 := fun e => h (by simp [e])
    rw [sprintf0, if_neg h1, ih (fun e => h (List.mem_cons_of_mem _ e))]

/-- **C77**: without a percent sign in the WHERE clause the log shows its text. -/
theorem C77_logged (text : Str) (h : 37 ∉ text) :
    rejectLine text = bs "DEBUG: REJECTED by " ++ text := by
  apply sprintf0_plain
  intro e
  rcases List.mem_append.1 e with e | e
  · revert e; decide
  · exact h e

/-- Refuted: "the log shows the WHERE clause that rejected the row". Its text is used as a format. -/
theorem C77_logged_refuted :
    rejectLine (bs "a = '100%'") = bs "DEBUG: REJECTED by a = '100%!'(MISSING)" ∧
      rejectLine (bs "a = '%%'") = rejectLine (bs "a = '%5%'") := by
  decide +kernel

end Vfilter.Expl
