import Verif.ParseFuel
/-!
# Statements in front of other statements

A statement that is parsed alone is parsed in the same way in front of another statement: the
grammar functions are compared on an input `ts` and on the input `ts ++ R`, where `R` is nothing
or starts with LET, SELECT, EXPLAIN or a comment.
-/

set_option linter.all false

namespace Vfilter.Fmt

/-- The same result with more input left. -/
def ext {α : Type} (R : List Tok) : Res α → Res α
  | .no => .no
  | .ok a r => .ok a (r ++ R)
  | .err r => .err (r ++ R)
  | .fuel => .fuel

/-- The kinds of words an expression, a query or a statement may end with. -/
def closeKs : List TK := [.ident, .symIdent, .string, .mlString, .number, .bool, .null, .desc]

/-- The brackets it may end with. -/
def closeSs : List Str := [bs ")", bs "]", bs "}"]

/-- A token a statement may end with.  Statements may end with a comma, too; this is not counted
here. -/
def Closing (t : Tok) : Prop := (t.kind ∈ closeKs ∧ t.text ∉ opTexts) ∨ (t.kind = .op ∧ t.text ∈ closeSs)

instance (t : Tok) : Decidable (Closing t) := inferInstanceAs (Decidable (_ ∨ _))

/-- Some tokens without comments, the last of which may end a statement. -/
def Fin (ts : List Tok) : Prop :=
  (∀ t ∈ ts, t.kind ∉ comKs) ∧ ∃ t, ts.getLast? = some t ∧ Closing t

/-- The kinds of tokens a statement starts with, and comments. -/
def begKs : List TK := [.let_, .select, .explain, .vqlComment, .comment, .mlComment]

/-- What may follow a statement: comments and the start of another statement. -/
def Beg : List Tok → Prop
  | [] => True
  | t :: R => t.text ∉ opTexts ∧ (t.kind ∈ [TK.let_, .select, .explain] ∨ t.kind ∈ comKs ∧ Beg R)

theorem Beg.head {t : Tok} {R : List Tok} (h : Beg (t :: R)) : t.kind ∈ begKs := by
  rcases h.2 with h | ⟨h, _⟩
  · simp only [List.mem_cons, List.not_mem_nil, or_false] at h
    rcases h with h | h | h <;> simp [begKs, h]
  · simp only [comKs, List.mem_cons, List.not_mem_nil, or_false] at h
    rcases h with h | h | h <;> simp [begKs, h]

/-- It does not start with two comments. -/
def Few : List Tok → Prop
  | a :: b :: _ => a.kind ∉ comKs ∨ b.kind ∉ comKs
  | _ => True

instance : ∀ R, Decidable (Few R)
  | [] => .isTrue trivial
  | [_] => .isTrue trivial
  | a :: b :: _ => inferInstanceAs (Decidable (_ ∨ _))

theorem Fin.ne {ts : List Tok} (h : Fin ts) : ts ≠ [] := by
  obtain ⟨_, t, h, _⟩ := h
  rintro rfl
  simp at h

theorem Fin.suffix {ts r : List Tok} (h : Fin ts) (hs : r <:+ ts) (hr : r ≠ []) : Fin r := by
  obtain ⟨h1, t, h2, h3⟩ := h
  refine ⟨fun u hu => h1 u (hs.subset hu), t, ?_, h3⟩
  obtain ⟨x, rfl⟩ := hs
  obtain ⟨c, hc⟩ := List.getLast?_isSome.2 hr |> Option.isSome_iff_exists.1
  rw [List.getLast?_append, hc] at h2
  rw [hc]
  simpa using h2

theorem Fin.next {ts : List Tok} (h : Fin ts) : Next comKs [] ts := by
  cases ts with
  | nil => trivial
  | cons t ts => exact ⟨h.1 t (by simp), by simp⟩

theorem next_append {ks : List TK} {ss : List Str} {ts : List Tok} (R : List Tok) (hne : ts ≠ []) (h : Next ks ss ts) :
    Next ks ss (ts ++ R) := by
  cases ts with
  | nil => exact absurd rfl hne
  | cons t ts => exact h

section
variable {α β : Type} (R : List Tok)

/-- It failed for good, or the bound on the recursion was too small. -/
def Dead (ts : List Tok) (x : Res α) : Prop := x = .fuel ∨ ∃ r, x = .err r ∧ tooFar ts r = true

/-- In front of `R` the same happens; or the parser has failed for good; or it has read
everything and its value is one of those excluded. -/
def Sta (bad : α → Prop) (p : P α) : Prop := ∀ ts, Fin ts →
  p (ts ++ R) = ext R (p ts) ∨ Dead ts (p ts) ∨ ∃ a, p ts = .ok a [] ∧ bad a

/-- Nothing is excluded. -/
abbrev No : α → Prop := fun _ => False

/-- The same happens at the end. -/
def Zo (p : P α) : Prop := p [] = .fuel ∨ p R = ext R (p [])

/-- There is no match at the end. -/
def Qt0 (p : P α) : Prop := p [] = .fuel ∨ p [] = .no ∨ ∃ r, p [] = .err r

/-- There is no match at the end, nor in front of `R`. -/
def Qt (p : P α) : Prop := Qt0 p ∧ (p [] = .fuel ∨ p R = .no ∨ ∃ r, p R = .err r ∧ tooFar R r = false)

/-- Something is left. -/
def NE (p : P α) : Prop := ∀ ts a r, Fin ts → p ts = .ok a r → r ≠ []

variable {R}

theorem far_app (ts r : List Tok) : tooFar (ts ++ R) (r ++ R) = tooFar ts r := by
  simp only [tooFar, List.length_append, decide_eq_decide]
  omega

theorem far_mono {ts r r2 : List Tok} (h : r.length ≤ ts.length) (h2 : tooFar r r2 = true) : tooFar ts r2 = true := by
  simp only [tooFar, decide_eq_true_eq] at h2 ⊢
  omega

theorem Dead.mono {ts r : List Tok} {x : Res α} (h : Dead r x) (hl : r.length ≤ ts.length) : Dead ts x := by
  rcases h with h | ⟨q, h, h2⟩
  · exact .inl h
  · exact .inr ⟨q, h, far_mono hl h2⟩
theorem Dead.bind {p : P α} {f : α → P β} {ts : List Tok} (h : Dead ts (p ts)) : Dead ts (p.bind f ts) := by
  unfold P.bind
  rcases h with h | ⟨q, h, h2⟩ <;> rw [h]
  · exact .inl rfl
  · exact .inr ⟨q, rfl, h2⟩
theorem Dead.need {p : P α} {ts : List Tok} (h : Dead ts (p ts)) : Dead ts (Fmt.need p ts) := by
  unfold Fmt.need
  rcases h with h | ⟨q, h, h2⟩ <;> rw [h]
  · exact .inl rfl
  · exact .inr ⟨q, rfl, h2⟩
theorem Dead.opt {p : P α} {ts : List Tok} (h : Dead ts (p ts)) : Dead ts (Fmt.opt p ts) := by
  unfold Fmt.opt
  rcases h with h | ⟨q, h, h2⟩ <;> rw [h]
  · exact .inl rfl
  · exact .inr ⟨q, by simp [h2], h2⟩
theorem Dead.many {p : P α} {ts : List Tok} (h : Dead ts (p ts)) (n : Nat) : Dead ts (Fmt.many p (n + 1) ts) := by
  simp only [Fmt.many]
  rcases h with h | ⟨q, h, h2⟩ <;> rw [h]
  · exact .inl rfl
  · exact .inr ⟨q, by simp [h2], h2⟩
theorem Dead.alt {p q : P α} {ts : List Tok} (h : Dead ts (p ts)) : Dead ts (Fmt.alt p q ts) := by
  unfold Fmt.alt
  rcases h with h | ⟨q, h, h2⟩ <;> rw [h]
  · exact .inl rfl
  · exact .inr ⟨q, by simp [h2], h2⟩

theorem far_nil (r : List Tok) : tooFar [] r = false := by simp [tooFar]

/-! ### Quiet at the end -/

theorem Qt0.bind {p : P α} (h : Qt0 p) (f : α → P β) : Qt0 (p.bind f) := by
  rcases h with h | h | ⟨r, h⟩
  · exact .inl (by simp [P.bind, h])
  · exact .inr (.inl (by simp [P.bind, h]))
  · exact .inr (.inr ⟨r, by simp [P.bind, h]⟩)
theorem Qt0.need {p : P α} (h : Qt0 p) : Qt0 (Fmt.need p) := by
  rcases h with h | h | ⟨r, h⟩
  · exact .inl (by simp [Fmt.need, h])
  · exact .inr (.inr ⟨[], by simp [Fmt.need, h]⟩)
  · exact .inr (.inr ⟨r, by simp [Fmt.need, h]⟩)
theorem Qt.fuel {p : P α} (h : p [] = .fuel) : Qt R p := ⟨.inl h, .inl h⟩
theorem Qt.bind {p : P α} (h : Qt R p) (f : α → P β) : Qt R (p.bind f) := by
  refine ⟨h.1.bind f, ?_⟩
  rcases h.2 with h | h | ⟨r, h, h2⟩
  · exact .inl (by simp [P.bind, h])
  · exact .inr (.inl (by simp [P.bind, h]))
  · exact .inr (.inr ⟨r, by simp [P.bind, h], h2⟩)
theorem Qt.map {p : P α} (h : Qt R p) (f : α → β) : Qt R (p.map f) := h.bind _
theorem Qt.no {p : P α} (h : p [] = .no) (h2 : p R = .no) : Qt R p := ⟨.inr (.inl h), .inr (.inl h2)⟩
theorem Qt0.fl {p : P α} (h : Fl p []) : Qt0 p := by
  rcases h with h | h
  · exact .inr (.inl h)
  · exact .inr (.inr ⟨_, h⟩)
theorem Qt.fl {p : P α} (h : Fl p []) (h2 : Fl p R) : Qt R p := by
  refine ⟨Qt0.fl h, ?_⟩
  rcases h2 with h | h
  · exact .inr (.inl h)
  · exact .inr (.inr ⟨_, h, far_self R⟩)

theorem beg_next (hR : Beg R) {ks : List TK} {ss : List Str} (hk : ∀ k ∈ ks, k ∉ begKs) (hs : ∀ s ∈ ss, s ∈ opTexts) :
    Next ks ss R := by
  cases R with
  | nil => trivial
  | cons t R => exact ⟨fun hm => hk _ hm hR.head, fun hm => hR.1 (hs _ hm)⟩

theorem Qt.tok (hR : Beg R) {k : TK} (hk : k ∉ begKs := by decide) : Qt R (Fmt.tok k) :=
  Qt.fl (tok_fl (by trivial)) (tok_fl (beg_next hR (by simpa using hk) (by simp)))
theorem Qt.lit (hR : Beg R) {s : Str} (hs : s ∈ opTexts := by decide) : Qt R (Fmt.lit s) :=
  Qt.fl (lit_fl (by trivial)) (lit_fl (beg_next hR (by simp) (by simpa using hs)))
theorem Qt.alt {p q : P α} (hp : Qt R p) (hq : Qt R q) : Qt R (Fmt.alt p q) := by
  obtain ⟨h1, h2⟩ := hp
  obtain ⟨h3, h4⟩ := hq
  rcases h1 with h1 | h1 | ⟨r, h1⟩
  · exact Qt.fuel (by simp [Fmt.alt, h1])
  all_goals
    rcases h3 with h3 | h3 | ⟨r2, h3⟩
    · exact Qt.fuel (by simp [Fmt.alt, h1, h3, far_nil])
    all_goals
      refine ⟨by simp [Qt0, Fmt.alt, h1, h3, far_nil], .inr ?_⟩
      rcases h2 with h2 | h2 | ⟨r3, h2, f2⟩
      · simp [h1] at h2
      all_goals
        rcases h4 with h4 | h4 | ⟨r4, h4, f4⟩
        · simp [h3] at h4
        all_goals simp [Fmt.alt, *, far_self]
theorem Qt.lits (hR : Beg R) : ∀ {ss : List Str}, (∀ s ∈ ss, s ∈ opTexts) → Qt R (Fmt.lits ss)
  | [], _ => Qt.no rfl rfl
  | s :: ss, h => (Qt.lit hR (h s (by simp))).alt (Qt.lits hR fun s hs => h s (by simp [hs]))
theorem Qt.cmpOp (hR : Beg R) : Qt R Fmt.cmpOp :=
  (Qt.lits hR (by decide)).alt ((Qt.tok hR).alt (Qt.lit hR))

/-! ### The end -/

theorem Zo.ret (a : α) : Zo R (Fmt.ret a) := .inr rfl
theorem Zo.fail : Zo R (fun ts => .err ts : P α) := .inr rfl
theorem Zo.tok (hR : Beg R) {k : TK} (hk : k ∉ begKs := by decide) : Zo R (Fmt.tok k) := by
  right
  cases R with
  | nil => rfl
  | cons t R =>
    show (if t.kind = k then _ else _) = _
    rw [if_neg (fun h : t.kind = k => hk (h ▸ hR.head))]
    rfl
theorem Zo.lit (hR : Beg R) {s : Str} (hs : s ∈ opTexts := by decide) : Zo R (Fmt.lit s) := by
  right
  cases R with
  | nil => rfl
  | cons t R =>
    show (if t.text = s then _ else _) = _
    rw [if_neg (fun h : t.text = s => hR.1 (h ▸ hs))]
    rfl
theorem Zo.need {p : P α} (h : Zo R p) : Zo R (Fmt.need p) := by
  unfold Zo Fmt.need at *
  rcases h with h | h
  · left; rw [h]
  · right
    rw [h]
    cases p [] <;> rfl
theorem Zo.opt {p : P α} (h : Qt R p) : Zo R (Fmt.opt p) := by
  obtain ⟨h1, h2⟩ := h
  rcases h1 with h1 | h1 | ⟨r, h1⟩
  · exact .inl (by simp [Fmt.opt, h1])
  all_goals
    rcases h2 with h2 | h2 | ⟨r2, h2, f2⟩
    · simp [h1] at h2
    all_goals exact .inr (by simp [Fmt.opt, *, far_nil, ext])
theorem Zo.many {p : P α} (h : Qt R p) (n : Nat) : Zo R (Fmt.many p n) := by
  cases n with
  | zero => exact .inl rfl
  | succ n =>
    obtain ⟨h1, h2⟩ := h
    rcases h1 with h1 | h1 | ⟨r, h1⟩
    · exact .inl (by simp [Fmt.many, h1])
    all_goals
      rcases h2 with h2 | h2 | ⟨r2, h2, f2⟩
      · simp [h1] at h2
      all_goals exact .inr (by simp [Fmt.many, *, far_nil, ext])
theorem Zo.bind {p : P α} {f : α → P β} (h : Zo R p) (hs : Sfx p) (hf : ∀ a, Zo R (f a)) : Zo R (p.bind f) := by
  unfold Zo P.bind at *
  rcases h with h | h
  · left; rw [h]
  rw [h]
  cases hp : p [] with
  | ok a r =>
    have : r = [] := by simpa using (hs []).1 a r hp
    subst this
    exact hf a
  | _ => exact .inr rfl
/-- What follows a failure does not matter. -/
theorem Zo.bindErr {p : P α} {f : α → P β} (h : Zo R p) (hs : Qt0 p) : Zo R (p.bind f) := by
  unfold Zo P.bind at *
  rcases h with h | h
  · left; rw [h]
  rw [h]
  rcases hs with hs | hs | ⟨r, hs⟩ <;> rw [hs] <;> exact .inr rfl
theorem Zo.map {p : P α} (h : Zo R p) (hs : Sfx p) (f : α → β) : Zo R (p.map f) := h.bind hs fun _ => Zo.ret _
theorem Zo.alt {p q : P α} (h : Zo R p) (hq : Zo R q) : Zo R (Fmt.alt p q) := by
  unfold Zo Fmt.alt at *
  rcases h with h | h
  · left; rw [h]
  rw [h]
  have hf : ∀ r : List Tok, tooFar R (r ++ R) = false := fun r => by simp [tooFar]; omega
  cases hp : p [] with
  | no => exact hq
  | ok a r => exact .inr rfl
  | fuel => exact .inr rfl
  | err r =>
    simp only [ext, hf, far_nil, Bool.false_eq_true, if_false]
    rcases hq with hq | hq
    · left; rw [hq]
    right
    rw [hq]
    cases q [] <;> simp [ext, hf, far_nil]

/-! ### Something is left -/

theorem NE.tok {k : TK} (hk : k ∉ TK.op :: closeKs := by decide) : NE (Fmt.tok k) := fun ts a r hf h => by
  rintro rfl
  cases ts with
  | nil => simp [Fmt.tok] at h
  | cons t ts =>
    simp only [Fmt.tok] at h
    split at h
    · rename_i hkk
      simp only [Res.ok.injEq] at h
      obtain ⟨_, rfl⟩ := h
      obtain ⟨_, u, hu, hc⟩ := hf
      simp only [List.getLast?_singleton, Option.some.injEq] at hu
      subst hu
      apply hk
      rcases hc with hc | hc
      · rw [← hkk]; simp [hc.1]
      · rw [← hkk]; simp [hc.1]
    · simp at h

theorem NE.lit {s : Str} (hs : s ∈ opTexts ∧ s ∉ closeSs := by decide) : NE (Fmt.lit s) := fun ts a r hf h => by
  rintro rfl
  cases ts with
  | nil => simp [Fmt.lit] at h
  | cons t ts =>
    simp only [Fmt.lit] at h
    split at h
    · rename_i hkk
      simp only [Res.ok.injEq] at h
      obtain ⟨_, rfl⟩ := h
      obtain ⟨_, u, hu, hc⟩ := hf
      simp only [List.getLast?_singleton, Option.some.injEq] at hu
      subst hu
      rcases hc with hc | hc
      · exact hc.2 (hkk ▸ hs.1)
      · exact hs.2 (hkk ▸ hc.2)
    · simp at h

theorem NE.need {p : P α} (h : NE p) : NE (Fmt.need p) := fun ts a r hf hb => by
  unfold Fmt.need at hb
  split at hb
  · simp at hb
  · exact h ts a r hf hb

theorem NE.opt {p : P α} (h : NE p) : NE (Fmt.opt p) := fun ts a r hf hb => by
  unfold Fmt.opt at hb
  cases hp : p ts with
  | no => rw [hp] at hb; simp at hb; exact hb.2 ▸ hf.ne
  | fuel => rw [hp] at hb; simp at hb
  | ok b r1 => rw [hp] at hb; simp at hb; exact hb.2 ▸ h ts b r1 hf hp
  | err r1 =>
    rw [hp] at hb
    dsimp only at hb
    split at hb
    · simp at hb
    · simp at hb; exact hb.2 ▸ hf.ne

theorem NE.alt {p q : P α} (h : NE p) (hq : NE q) : NE (Fmt.alt p q) := fun ts a r hf hb => by
  unfold Fmt.alt at hb
  cases hp : p ts with
  | no => rw [hp] at hb; exact hq ts a r hf hb
  | fuel => rw [hp] at hb; simp at hb
  | ok a r1 => rw [hp] at hb; simp at hb; exact hb.2 ▸ h ts a r1 hf hp
  | err r1 =>
    rw [hp] at hb
    dsimp only at hb
    split at hb
    · simp at hb
    · cases hq' : q ts with
      | no => rw [hq'] at hb; simp at hb
      | fuel => rw [hq'] at hb; simp at hb
      | ok a r2 => rw [hq'] at hb; simp at hb; exact hb.2 ▸ hq ts a r2 hf hq'
      | err r2 => rw [hq'] at hb; dsimp only at hb; split at hb <;> simp at hb

theorem NE.lits : ∀ {ss : List Str}, (∀ s ∈ ss, s ∈ opTexts ∧ s ∉ closeSs) → NE (Fmt.lits ss)
  | [], _ => fun ts a r _ h => by simp [Fmt.lits] at h
  | s :: ss, h => (NE.lit (h s (by simp))).alt (NE.lits fun s hs => h s (by simp [hs]))
theorem NE.cmpOp : NE Fmt.cmpOp := (NE.lits (by decide)).alt ((NE.tok).alt (NE.lit))

theorem NE.bind {p : P α} {f : α → P β} (h : NE p) (hs : Sfx p) (hf : ∀ a, NE (f a)) : NE (p.bind f) :=
  fun ts b r hF hb => by
    unfold P.bind at hb
    cases hp : p ts with
    | no => rw [hp] at hb; simp at hb
    | fuel => rw [hp] at hb; simp at hb
    | err r => rw [hp] at hb; simp at hb
    | ok a r1 =>
      rw [hp] at hb
      have h1 := h ts a r1 hF hp
      exact hf a r1 b r (hF.suffix ((hs ts).1 a r1 hp) h1) hb

theorem NE.many {p : P α} (h : NE p) (hs : Sfx p) : ∀ n, NE (Fmt.many p n)
  | 0 => fun ts a r _ hb => by simp [Fmt.many] at hb
  | n + 1 => fun ts a r hf hb => by
    simp only [Fmt.many] at hb
    cases hp : p ts with
    | no => rw [hp] at hb; simp at hb; exact hb.2 ▸ hf.ne
    | fuel => rw [hp] at hb; simp at hb
    | ok b r1 =>
      rw [hp] at hb
      dsimp only at hb
      have h1 := h ts b r1 hf hp
      have hf1 := hf.suffix ((hs ts).1 b r1 hp) h1
      unfold P.bind at hb
      cases hm : Fmt.many p n r1 with
      | no => rw [hm] at hb; simp at hb
      | fuel => rw [hm] at hb; simp at hb
      | err r => rw [hm] at hb; simp at hb
      | ok c r2 =>
        rw [hm] at hb
        simp [Fmt.ret] at hb
        exact hb.2 ▸ NE.many h hs n r1 c r2 hf1 hm
    | err r1 =>
      rw [hp] at hb
      dsimp only at hb
      split at hb
      · simp at hb
      · simp at hb; exact hb.2 ▸ hf.ne

/-! ### In front of other statements -/

theorem Sta.imp {b b' : α → Prop} {p : P α} (h : Sta R b p) (hb : ∀ a, b a → b' a) : Sta R b' p := fun ts hf => by
  rcases h ts hf with h | h | ⟨a, h, hba⟩
  · exact .inl h
  · exact .inr (.inl h)
  · exact .inr (.inr ⟨a, h, hb a hba⟩)

theorem Sta.no {b : α → Prop} {p : P α} (h : Sta R No p) : Sta R b p := h.imp fun _ h => h.elim

theorem Sta.ret {b : α → Prop} (a : α) : Sta R b (Fmt.ret a) := fun ts hf => .inl rfl
theorem Sta.fail {b : α → Prop} : Sta R b (fun ts => .err ts : P α) := fun ts hf => .inl rfl
theorem Sta.fuel {b : α → Prop} : Sta R b (fun _ => .fuel : P α) := fun ts hf => .inl rfl

theorem Sta.tok {b : Str → Prop} (k : TK) : Sta R b (Fmt.tok k) := fun ts hf => by
  left
  cases ts with
  | nil => exact absurd rfl hf.ne
  | cons t ts =>
    simp only [List.cons_append, Fmt.tok]
    split <;> rfl
theorem Sta.lit {b : Str → Prop} (s : Str) : Sta R b (Fmt.lit s) := fun ts hf => by
  left
  cases ts with
  | nil => exact absurd rfl hf.ne
  | cons t ts =>
    simp only [List.cons_append, Fmt.lit]
    split <;> rfl

theorem Sta.need {b : α → Prop} {p : P α} (h : Sta R b p) : Sta R b (Fmt.need p) := fun ts hf => by
  rcases h ts hf with h | h | ⟨a, h, h2⟩
  · left
    unfold Fmt.need
    rw [h]
    cases p ts <;> rfl
  · exact .inr (.inl h.need)
  · exact .inr (.inr ⟨a, by unfold Fmt.need; rw [h], h2⟩)

theorem Sta.bind {b : α → Prop} {b' : β → Prop} {p : P α} {f : α → P β} (h : Sta R b p) (hs : Sfx p)
    (hf : ∀ a, Sta R b' (f a)) (hz : ∀ a, Zo R (f a))
    (hb : ∀ a, b a → Dead (α := β) [] (f a []) ∨ ∃ c, f a [] = .ok c [] ∧ b' c) : Sta R b' (p.bind f) := fun ts hF => by
  rcases h ts hF with h | h | ⟨a, h, h2⟩
  · unfold P.bind
    rw [h]
    cases hp : p ts with
    | no => exact .inl rfl
    | fuel => exact .inl rfl
    | err r => exact .inl rfl
    | ok a r =>
      have hr := (hs ts).1 a r hp
      by_cases hne : r = []
      · subst hne
        rcases hz a with hz | hz
        · exact .inr (.inl (.inl hz))
        · exact .inl hz
      · rcases hf a r (hF.suffix hr hne) with h | h | h
        · exact .inl h
        · exact .inr (.inl (h.mono hr.length_le))
        · exact .inr (.inr h)
  · exact .inr (.inl h.bind)
  · unfold P.bind
    rcases hb a h2 with hd | ⟨c, h3, h4⟩
    · exact .inr (.inl (by rw [h]; exact hd.mono (by simp)))
    · exact .inr (.inr ⟨c, by rw [h]; exact h3, h4⟩)

/-- Behind a part that leaves something. -/
theorem Sta.bindNE {b' : β → Prop} {p : P α} {f : α → P β} (h : Sta R No p) (hs : Sfx p) (hn : NE p)
    (hf : ∀ a, Sta R b' (f a)) : Sta R b' (p.bind f) := fun ts hF => by
  rcases h ts hF with h | h | ⟨a, h, h2⟩
  · unfold P.bind
    rw [h]
    cases hp : p ts with
    | no => exact .inl rfl
    | fuel => exact .inl rfl
    | err r => exact .inl rfl
    | ok a r =>
      have hr := (hs ts).1 a r hp
      rcases hf a r (hF.suffix hr (hn ts a r hF hp)) with h | h | h
      · exact .inl h
      · exact .inr (.inl (h.mono hr.length_le))
      · exact .inr (.inr h)
  · exact .inr (.inl h.bind)
  · exact h2.elim

theorem Sta.bindNo {b' : β → Prop} {p : P α} {f : α → P β} (h : Sta R No p) (hs : Sfx p)
    (hf : ∀ a, Sta R b' (f a)) (hz : ∀ a, Zo R (f a)) : Sta R b' (p.bind f) :=
  h.bind hs hf hz fun _ h => h.elim

theorem Sta.map {b : α → Prop} {b' : β → Prop} {p : P α} (h : Sta R b p) (hs : Sfx p) (f : α → β)
    (hb : ∀ a, b a → b' (f a)) : Sta R b' (p.map f) :=
  h.bind hs (fun _ => Sta.ret _) (fun _ => Zo.ret _) fun a ha => .inr ⟨f a, rfl, hb a ha⟩

theorem Sta.mapNo {b' : β → Prop} {p : P α} (h : Sta R No p) (hs : Sfx p) (f : α → β) : Sta R b' (p.map f) :=
  h.map hs f fun _ h => h.elim

theorem Sta.opt {b : α → Prop} {b' : Option α → Prop} {p : P α} (h : Sta R b p) (hb : ∀ a, b a → b' (some a)) :
    Sta R b' (Fmt.opt p) := fun ts hf => by
  rcases h ts hf with h | h | ⟨a, h, h2⟩
  · left
    unfold Fmt.opt
    rw [h]
    cases p ts with
    | err r => simp only [ext, far_app]; split <;> rfl
    | _ => rfl
  · exact .inr (.inl h.opt)
  · exact .inr (.inr ⟨some a, by unfold Fmt.opt; rw [h], hb a h2⟩)

theorem Sta.optNo {b' : Option α → Prop} {p : P α} (h : Sta R No p) : Sta R b' (Fmt.opt p) :=
  h.opt fun _ h => h.elim

theorem Sta.alt {b : α → Prop} {p q : P α} (h : Sta R b p) (hq : Sta R b q) : Sta R b (Fmt.alt p q) := fun ts hf => by
  rcases h ts hf with h | h | ⟨a, h, h2⟩
  · unfold Fmt.alt
    rw [h]
    cases hp : p ts with
    | ok a r => exact .inl rfl
    | fuel => exact .inl rfl
    | no => exact hq ts hf
    | err r =>
      simp only [ext, far_app]
      split
      · exact .inl rfl
      · rcases hq ts hf with h | h | ⟨a, h, h2⟩
        · left
          rw [h]
          cases q ts with
          | err r2 => simp only [ext, far_app]; split <;> rfl
          | _ => rfl
        · right; left
          rcases h with h | ⟨r, h, h2⟩
          · exact .inl (by rw [h])
          · exact .inr ⟨r, by rw [h]; simp [h2], h2⟩
        · exact .inr (.inr ⟨a, by rw [h], h2⟩)
  · exact .inr (.inl h.alt)
  · exact .inr (.inr ⟨a, by unfold Fmt.alt; rw [h], h2⟩)

theorem Sta.lits {b : Str → Prop} : ∀ ss, Sta R b (Fmt.lits ss)
  | [] => fun ts hf => .inl rfl
  | s :: ss => (Sta.lit s).alt (Sta.lits ss)
theorem Sta.cmpOp {b : Str → Prop} : Sta R b Fmt.cmpOp := (Sta.lits _).alt ((Sta.tok _).alt (Sta.lit _))

theorem Sta.many {b : List α → Prop} {p : P α} (h : Sta R No p) (hs : Sfx p) (hq : Qt R p) :
    ∀ n, Sta R b (Fmt.many p n)
  | 0 => Sta.fuel
  | n + 1 => fun ts hf => by
    rcases h ts hf with h1 | h1 | ⟨a, h1, h2⟩
    · simp only [Fmt.many]
      rw [h1]
      cases hp : p ts with
      | no => exact .inl rfl
      | fuel => exact .inl rfl
      | err r =>
        simp only [ext, far_app]
        left; split <;> rfl
      | ok a r =>
        have hr := (hs ts).1 a r hp
        have hM := Sta.bindNo (b' := b) (Sta.many (b := No) h hs hq n) (hs.many n) (fun as => Sta.ret (R := R) (a :: as))
          (fun as => Zo.ret _)
        by_cases hne : r = []
        · subst hne
          rcases Zo.bind (Zo.many hq n) (hs.many n) (fun as => Zo.ret (a :: as)) with hz | hz
          · exact .inr (.inl (.inl hz))
          · exact .inl hz
        · rcases hM r (hf.suffix hr hne) with h | h | h
          · exact .inl h
          · exact .inr (.inl (h.mono hr.length_le))
          · exact .inr (.inr h)
    · exact .inr (.inl (h1.many n))
    · exact h2.elim

/-- A repeated part that leaves something. -/
theorem Sta.manyNE {b : List α → Prop} {p : P α} (h : Sta R No p) (hs : Sfx p) (hn : NE p) :
    ∀ n, Sta R b (Fmt.many p n)
  | 0 => Sta.fuel
  | n + 1 => fun ts hf => by
    rcases h ts hf with h1 | h1 | ⟨a, h1, h2⟩
    · simp only [Fmt.many]
      rw [h1]
      cases hp : p ts with
      | no => exact .inl rfl
      | fuel => exact .inl rfl
      | err r =>
        simp only [ext, far_app]
        left; split <;> rfl
      | ok a r =>
        have hr := (hs ts).1 a r hp
        have hM := Sta.bindNo (b' := b) (Sta.manyNE (b := No) h hs hn n) (hs.many n) (fun as => Sta.ret (R := R) (a :: as))
          (fun as => Zo.ret _)
        rcases hM r (hf.suffix hr (hn ts a r hf hp)) with h | h | h
        · exact .inl h
        · exact .inr (.inl (h.mono hr.length_le))
        · exact .inr (.inr h)
    · exact .inr (.inl (h1.many n))
    · exact h2.elim

/-- A repeated part of which nothing is known in front of `R`: the values are excluded if all
input has been read. -/
theorem Sta.manyAny {b : α → Prop} {p : P α} (h : Sta R b p) (hs : Sfx p) (hq : Qt0 p) :
    ∀ n, Sta R (fun as => as ≠ []) (Fmt.many p n)
  | 0 => Sta.fuel
  | n + 1 => fun ts hf => by
    have h1 : ∀ a : α, Dead (α := List α) ts (((Fmt.many p n).bind fun as => Fmt.ret (a :: as)) []) ∨
        ((Fmt.many p n).bind fun as => Fmt.ret (a :: as)) [] = .ok [a] [] := by
      intro a
      cases n with
      | zero => exact .inl (.inl rfl)
      | succ m =>
        rcases hq with hq | hq | ⟨r, hq⟩
        · exact .inl (.inl (by simp [Fmt.many, P.bind, hq]))
        all_goals exact .inr (by simp [Fmt.many, P.bind, hq, far_nil, Fmt.ret])
    rcases h ts hf with h2 | h2 | ⟨a, h2, h3⟩
    · simp only [Fmt.many]
      rw [h2]
      cases hp : p ts with
      | no => exact .inl rfl
      | fuel => exact .inl rfl
      | err r =>
        simp only [ext, far_app]
        left; split <;> rfl
      | ok a r =>
        have hr := (hs ts).1 a r hp
        by_cases hne : r = []
        · subst hne
          rcases h1 a with h1 | h1
          · exact .inr (.inl h1)
          · exact .inr (.inr ⟨[a], h1, by simp⟩)
        · have hM := Sta.bind (b' := fun as => as ≠ []) (Sta.manyAny h hs hq n) (hs.many n)
            (fun as => Sta.ret (R := R) (a :: as)) (fun as => Zo.ret _) (fun as _ => .inr ⟨a :: as, rfl, by simp⟩)
          rcases hM r (hf.suffix hr hne) with h | h | h
          · exact .inl h
          · exact .inr (.inl (h.mono hr.length_le))
          · exact .inr (.inr h)
    · exact .inr (.inl (h2.many n))
    · simp only [Fmt.many]
      rcases h1 a with h1 | h1
      · exact .inr (.inl (by rw [h2]; exact h1))
      · exact .inr (.inr ⟨[a], by rw [h2]; exact h1, by simp⟩)

/-! ### Comments -/

theorem Sta.optC_bind {b : β → Prop} {f : List Comment → P β} (h : ∀ cs, Sta R b (f cs)) : Sta R b (optC.bind f) :=
  fun ts hf => by
    rw [bind_ok (optC_nil hf.next), bind_ok (optC_nil (next_append R hf.ne hf.next))]
    exact h [] ts hf

theorem Sta.manyC_bind {b : β → Prop} {f : List Comment → P β} (n : Nat) (h : ∀ cs, Sta R b (f cs)) :
    Sta R b ((Fmt.many pComment n).bind f) := by
  cases n with
  | zero => exact Sta.fuel
  | succ n =>
    intro ts hf
    rw [bind_ok (many_stop (by omega) (com_fl hf.next)),
      bind_ok (many_stop (by omega) (com_fl (next_append R hf.ne hf.next)))]
    exact h [] ts hf

/-! ### Brackets -/

/-- The same happens, except if the end is reached. -/
def StaE (R : List Tok) (p : P α) : Prop := ∀ ts, Fin ts →
  p (ts ++ R) = ext R (p ts) ∨ Dead ts (p ts) ∨ p ts = .err []

/-- A failure at the end. -/
def EndErr (p : P α) : Prop := p [] = .fuel ∨ p [] = .err []

theorem Sta.toE {p : P α} (h : Sta R No p) : StaE R p := fun ts hf => by
  rcases h ts hf with h | h | ⟨a, _, h⟩
  · exact .inl h
  · exact .inr (.inl h)
  · exact h.elim

theorem StaE.bind {b : α → Prop} {p : P α} {f : α → P β} (h : Sta R b p) (hs : Sfx p)
    (hf : ∀ a, StaE R (f a)) (hz : ∀ a, EndErr (f a)) : StaE R (p.bind f) := fun ts hF => by
  rcases h ts hF with h | h | ⟨a, h, h2⟩
  · unfold P.bind
    rw [h]
    cases hp : p ts with
    | no => exact .inl rfl
    | fuel => exact .inl rfl
    | err r => exact .inl rfl
    | ok a r =>
      have hr := (hs ts).1 a r hp
      by_cases hne : r = []
      · subst hne
        rcases hz a with hz | hz
        · exact .inr (.inl (.inl hz))
        · exact .inr (.inr hz)
      · rcases hf a r (hF.suffix hr hne) with h | h | h
        · exact .inl h
        · exact .inr (.inl (h.mono hr.length_le))
        · exact .inr (.inr h)
  · exact .inr (.inl h.bind)
  · unfold P.bind
    rw [h]
    rcases hz a with hz | hz
    · exact .inr (.inl (.inl hz))
    · exact .inr (.inr hz)

/-- Behind an opening bracket. -/
theorem Sta.open {b' : β → Prop} {s : Str} (hs : s ∈ opTexts ∧ s ∉ closeSs) {f : Str → P β}
    (hf : ∀ a, StaE R (f a)) : Sta R b' ((Fmt.lit s).bind f) := fun ts hF => by
  have h := Sta.lit (R := R) (b := No) s ts hF
  rcases h with h | h | ⟨a, h, h2⟩
  · unfold P.bind
    rw [h]
    cases hp : Fmt.lit s ts with
    | no => exact .inl rfl
    | fuel => exact .inl rfl
    | err r => exact .inl rfl
    | ok a r =>
      have hr := (Sfx.lit s ts).1 a r hp
      have hpos := Pos.lit s ts a r hp
      have hne := NE.lit hs ts a r hF hp
      rcases hf a r (hF.suffix hr hne) with h | h | h
      · exact .inl h
      · exact .inr (.inl (h.mono hr.length_le))
      · refine .inr (.inl (.inr ⟨[], h, ?_⟩))
        have := List.length_pos_iff.2 hne
        simp only [tooFar, decide_eq_true_eq, List.length_nil]
        omega
  · exact .inr (.inl h.bind)
  · exact h2.elim

theorem EndErr.need_lit (s : Str) (f : Str → P β) : EndErr ((Fmt.need (Fmt.lit s)).bind f) := .inr rfl
theorem EndErr.many {p : P α} {f : List α → P β} (hq : Qt0 p) (n : Nat) (h : ∀ as, EndErr (f as)) :
    EndErr ((Fmt.many p n).bind f) := by
  cases n with
  | zero => exact .inl rfl
  | succ n =>
    rcases hq with hq | hq | ⟨r, hq⟩
    · exact .inl (by simp [Fmt.many, P.bind, hq])
    all_goals
      rcases h [] with h | h
      · exact .inl (by simp [Fmt.many, P.bind, hq, far_nil, h])
      · exact .inr (by simp [Fmt.many, P.bind, hq, far_nil, h])

/-! ### Lists -/

theorem Sta.sepBy {b : List α → Prop} (hR : Beg R) {p : P α} (h : Sta R No p) (hs : Sfx p) (n : Nat) :
    Sta R b (Fmt.sepBy p n) := by
  unfold Fmt.sepBy
  have h1 : Sta R No ((Fmt.lit (bs ",")).bind fun _ => Fmt.need p) :=
    Sta.bindNE (Sta.lit _) (Sfx.lit _) (NE.lit) fun _ => h.need
  have hs1 : Sfx ((Fmt.lit (bs ",")).bind fun _ => Fmt.need p) := (Sfx.lit _).bind fun _ => hs.need
  have hq1 : Qt R ((Fmt.lit (bs ",")).bind fun _ => Fmt.need p) := (Qt.lit hR).bind _
  refine Sta.bindNo h hs (fun a => Sta.bindNo (Sta.many h1 hs1 hq1 n) (hs1.many n) (fun as => Sta.ret _) fun as => Zo.ret _) ?_
  exact fun a => Zo.bind (Zo.many hq1 n) (hs1.many n) fun _ => Zo.ret _

theorem Sta.dotted {b : Str → Prop} (hR : Beg R) {p : P Str} (h : Sta R No p) (hs : Sfx p) (n : Nat) :
    Sta R b (Fmt.dotted p n) := by
  unfold Fmt.dotted
  have h1 : Sta R No ((Fmt.lit (bs ".")).bind fun d => (Fmt.need (Fmt.tok .ident)).bind fun i => Fmt.ret (d ++ i)) :=
    Sta.bindNE (Sta.lit _) (Sfx.lit _) (NE.lit) fun _ =>
      Sta.bindNo (Sta.need (Sta.tok _)) (Sfx.need (Sfx.tok _)) (fun _ => Sta.ret _) fun _ => Zo.ret _
  have hs1 : Sfx ((Fmt.lit (bs ".")).bind fun d => (Fmt.need (Fmt.tok .ident)).bind fun i => Fmt.ret (d ++ i)) :=
    (Sfx.lit _).bind fun _ => (Sfx.tok _).need.bind fun _ => Sfx.ret _
  have hq1 : Qt R ((Fmt.lit (bs ".")).bind fun d => (Fmt.need (Fmt.tok .ident)).bind fun i => Fmt.ret (d ++ i)) := (Qt.lit hR).bind _
  refine Sta.bindNo h hs (fun a => Sta.bindNo (Sta.many h1 hs1 hq1 n) (hs1.many n) (fun as => Sta.ret _) fun as => Zo.ret _) ?_
  exact fun a => Zo.bind (Zo.many hq1 n) (hs1.many n) fun _ => Zo.ret _

/-- A part in brackets. -/
theorem Sta.brk {γ : Type} {b : α → Prop} {b' : γ → Prop} (o c : Str) (ho : o ∈ opTexts ∧ o ∉ closeSs)
    (hR : Beg R) {p : P α} (h : Sta R b p) (hs : Sfx p) (g : α → γ) :
    Sta R b' ((Fmt.lit o).bind fun _ => p.bind fun a => (Fmt.need (Fmt.lit c)).bind fun _ => Fmt.ret (g a)) :=
  Sta.open ho fun _ => StaE.bind h hs
    (fun _ => (Sta.bindNo (Sta.lit c).need (Sfx.lit c).need (fun _ => Sta.ret _) fun _ => Zo.ret _).toE)
    fun _ => EndErr.need_lit _ _
end

end Vfilter.Fmt
