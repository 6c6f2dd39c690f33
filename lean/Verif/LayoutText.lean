import Verif.RoundFinal
/-!
# The tokens of every layout

The visitor has several layouts to choose from, and `ReFormatVQL` removes the blanks at the ends
of the lines afterwards.  Whatever layout is chosen and whether or not the blanks are removed, the
text is read as the tokens of the tree.
-/

set_option linter.all false

namespace Vfilter.Fmt.Lay

/-! ## Blanks -/

/-- Blanks and newlines. -/
def Blk (b : Str) : Prop := ∀ c ∈ b, c = 32 ∨ c = 10

/-- The text ends with a character that is no blank, or is empty. -/
def Core (x : Str) : Prop := x = [] ∨ ∃ c, x.getLast? = some c ∧ isBlank c = false

/-- The first and the last character are no blanks. -/
def Hard (t : Str) : Prop :=
  (∃ c s, t = c :: s ∧ isBlank c = false) ∧ ∃ c, t.getLast? = some c ∧ isBlank c = false

theorem Blk.nil : Blk [] := by intro c hc; simp at hc
theorem Blk.append {a b : Str} (ha : Blk a) (hb : Blk b) : Blk (a ++ b) := by
  intro c hc
  rcases List.mem_append.1 hc with h | h
  · exact ha c h
  · exact hb c h

theorem blk_blank {b : Str} (h : Blk b) : ∀ c ∈ b, isBlank c = true := by
  intro c hc
  rcases h c hc with rfl | rfl <;> rfl

theorem blk_ws {b : Str} (h : Blk b) : ∀ c ∈ b, isWS c = true := by
  intro c hc
  rcases h c hc with rfl | rfl <;> rfl

theorem blk_lex : ∀ {b : Str} (h : Blk b) (r : Str), lex (b ++ r) = lex r
  | [], _, _ => rfl
  | c :: b, h, r => by
    rw [List.cons_append, lex_blank (blk_ws h c (by simp))]
    exact blk_lex (fun d hd => h d (by simp [hd])) r

theorem blk_noB : ∀ {b : Str} (h : Blk b) (r : Str), noB (b ++ r) = noB r
  | [], _, _ => rfl
  | c :: b, h, r => by
    have h1 := blk_noB (b := b) (fun d hd => h d (by simp [hd])) r
    rw [← h1]
    unfold noB
    rw [List.cons_append, List.dropWhile_cons_of_pos (blk_ws h c (by simp))]

theorem blk_fol {b : Str} (h : Blk b) (hne : b ≠ []) {r : Str} (hr : noB r = true) : folE (b ++ r) = true := by
  cases b with
  | nil => exact absurd rfl hne
  | cons c b =>
    have h1 := blk_blank h c (by simp)
    have h2 : noB (b ++ r) = true := by rw [blk_noB (fun d hd => h d (by simp [hd]))]; exact hr
    simp [folE, h1, h2]

theorem blk_end {b : Str} (h : Blk b) : folE b = true := by
  by_cases hb : b = []
  · rw [hb]; rfl
  · have := blk_fol h hb (r := []) rfl
    rwa [List.append_nil] at this

theorem Core.append {x t : Str} (h : Hard t) : Core (x ++ t) := by
  obtain ⟨_, c, h1, h2⟩ := h
  exact .inr ⟨c, by rw [List.getLast?_append, h1]; rfl, h2⟩

theorem spaces_blk (n : Nat) : Blk (spaces n) := by
  intro c hc
  unfold spaces at hc
  exact .inl (List.eq_of_mem_replicate hc)

/-- A blank end can be moved off a text. -/
theorem core_peel {x b y z : Str} (h : x ++ b = y ++ z) (hx : Core x) (hb : Blk b)
    (hz : ∀ c ∈ z, isBlank c = true) : ∃ a, y = x ++ a ∧ Blk a := by
  rcases List.append_eq_append_iff.1 h with ⟨a, h1, h2⟩ | ⟨a, h1, h2⟩
  · exact ⟨a, h1, fun c hc => hb c (by rw [h2]; simp [hc])⟩
  · cases hl : a.getLast? with
    | none =>
      rw [List.getLast?_eq_none_iff] at hl
      subst hl
      exact ⟨[], by simpa using h1.symm, Blk.nil⟩
    | some c =>
      exfalso
      have hc : isBlank c = true := hz c (by rw [h2]; simp [List.mem_of_getLast? hl])
      rcases hx with rfl | ⟨d, hd, hdb⟩
      · have : a = [] := by simpa using (List.append_eq_nil_iff.1 h1.symm).2
        rw [this] at hl; simp at hl
      · rw [h1, List.getLast?_append, hl] at hd
        simp at hd
        rw [hd] at hc
        rw [hc] at hdb
        exact absurd hdb (by decide)

/-! ## What is done to the text -/

/-- The text is changed in its blanks only, as long as the tokens are `C`. -/
structure Tau (τ : Str → Str) (C : Str → Prop) : Prop where
  nil : τ [] = []
  step : ∀ {x b t : Str}, Core x → Blk b → Hard t → C t → ∃ b', Blk b' ∧ (b = [] → b' = []) ∧
    (b ≠ [] → b' ≠ []) ∧ τ (x ++ (b ++ t)) = τ x ++ (b' ++ t)
  fin : ∀ {x b : Str}, Core x → Blk b → ∃ b', Blk b' ∧ τ (x ++ b) = τ x ++ b'
  plain : ∀ t : Str, (∀ c ∈ t, c ≠ 10) → C t
  dot : ∀ a b : Str, C a → C b → C (a ++ 46 :: b)

/-- Nothing is done. -/
theorem tau_id : Tau id (fun _ => True) where
  nil := rfl
  step := fun {x b t} _ hb _ _ => ⟨b, hb, id, id, rfl⟩
  fin := fun {x b} _ hb => ⟨b, hb, rfl⟩
  plain := fun _ _ => trivial
  dot := fun _ _ _ _ => trivial

/-! ## Removing blanks at the ends of lines -/

/-- One character in front of a trimmed text. -/
def trimStep (c : UInt8) (r : Str) : Str :=
  if c = 32 ∧ (r = [] ∨ r.head? = some 10) then r else c :: r

/-- The text with the blanks at the ends of its lines removed. -/
def trimEnds (s : Str) : Str := s.foldr trimStep []

theorem trimEnds_append (x y : Str) : trimEnds (x ++ y) = x.foldr trimStep (trimEnds y) := by
  simp [trimEnds]

theorem trim_over (acc : Str) : ∀ (x : Str) (c : UInt8), x.getLast? = some c → c ≠ 32 →
    x.foldr trimStep acc = x.foldr trimStep [] ++ acc ∧ x.foldr trimStep [] ≠ []
  | [], c, h, _ => by simp at h
  | [d], c, h, hc => by
    simp at h
    subst h
    simp [trimStep, hc]
  | d :: e :: x, c, h, hc => by
    rw [List.getLast?_cons_cons] at h
    obtain ⟨h1, h2⟩ := trim_over acc (e :: x) c h hc
    rw [List.foldr_cons, List.foldr_cons (l := e :: x) (b := []), h1]
    generalize (e :: x).foldr trimStep [] = y at h2
    cases y with
    | nil => exact absurd rfl h2
    | cons f y =>
      simp only [trimStep, List.cons_append, List.head?_cons, Option.some.injEq, reduceCtorEq, false_or]
      split
      · exact ⟨rfl, by simp⟩
      · exact ⟨rfl, by simp⟩

theorem trimEnds_core {x : Str} (h : Core x) (y : Str) : trimEnds (x ++ y) = trimEnds x ++ trimEnds y := by
  rw [trimEnds_append]
  rcases h with rfl | ⟨c, h1, h2⟩
  · rfl
  · exact (trim_over _ x c h1 (by rintro rfl; exact absurd h2 (by decide))).1

/-- No line of the text ends with a blank. -/
def Clean (t : Str) : Prop := ∀ a b : Str, t ≠ a ++ 32 :: 10 :: b

theorem trimEnds_clean : ∀ {t : Str}, Clean t → (∀ c, t.getLast? = some c → c ≠ 32) → trimEnds t = t
  | [], _, _ => rfl
  | [c], _, h => by
    have := h c (by simp)
    simp [trimEnds, trimStep, this]
  | c :: d :: t, hc, h => by
    have ih := trimEnds_clean (t := d :: t) (fun a b e => hc (c :: a) b (by rw [e]; rfl))
      (fun c' h' => h c' (by rw [List.getLast?_cons_cons]; exact h'))
    show trimStep c (trimEnds (d :: t)) = _
    rw [ih]
    unfold trimStep
    rw [if_neg]
    rintro ⟨rfl, h2⟩
    simp only [reduceCtorEq, List.head?_cons, Option.some.injEq, false_or] at h2
    subst h2
    exact hc [] t rfl

theorem trim_blanks {t : Str} (ht : Hard t) : ∀ {b : Str}, Blk b → ∃ b', Blk b' ∧ (b = [] → b' = []) ∧
    (b ≠ [] → b' ≠ []) ∧ b.foldr trimStep t = b' ++ t
  | [], _ => ⟨[], Blk.nil, fun _ => rfl, fun h => absurd rfl h, rfl⟩
  | c :: b, hb => by
    obtain ⟨b2, h1, h2, h3, h4⟩ := trim_blanks ht (b := b) (fun d hd => hb d (by simp [hd]))
    rw [List.foldr_cons, h4]
    obtain ⟨⟨e, s, rfl, he⟩, _⟩ := ht
    have he10 : e ≠ 10 := by rintro rfl; exact absurd he (by decide)
    unfold trimStep
    split
    · rename_i hc
      refine ⟨b2, h1, fun h => by simp at h, fun _ => ?_, rfl⟩
      rintro rfl
      rcases hc.2 with h | h
      · simp at h
      · simp at h; exact he10 h
    · refine ⟨c :: b2, ?_, fun h => by simp at h, fun _ => by simp, rfl⟩
      intro d hd
      rcases List.mem_cons.1 hd with rfl | hd
      · exact hb d (by simp)
      · exact h1 d hd

theorem trim_blk : ∀ {b : Str}, Blk b → Blk (trimEnds b)
  | [], _ => Blk.nil
  | c :: b, hb => by
    have ih := trim_blk (b := b) (fun d hd => hb d (by simp [hd]))
    show Blk (trimStep c (trimEnds b))
    unfold trimStep
    split
    · exact ih
    · intro d hd
      rcases List.mem_cons.1 hd with rfl | hd
      · exact hb d (by simp)
      · exact ih d hd

/-- Trimming the lines keeps the tokens whose lines do not end with a blank. -/
theorem tau_trim : Tau trimEnds Clean where
  nil := rfl
  step := fun {x b t} hx hb ht hc => by
    obtain ⟨b', h1, h2, h3, h4⟩ := trim_blanks ht hb
    refine ⟨b', h1, h2, h3, ?_⟩
    rw [trimEnds_core hx, trimEnds_append, trimEnds_clean hc, h4]
    obtain ⟨_, c, hl, hn⟩ := ht
    intro d hd e
    rw [hl] at hd
    simp at hd
    rw [hd, e] at hn
    exact absurd hn (by decide)
  fin := fun {x b} hx hb => ⟨trimEnds b, trim_blk hb, trimEnds_core hx b⟩
  plain := fun t h a b e => h 10 (by rw [e]; simp) rfl
  dot := fun a b ha hb c d e => by
    rcases List.append_eq_append_iff.1 e with ⟨x, h1, h2⟩ | ⟨x, h1, h2⟩
    · cases x with
      | nil => simp at h2
      | cons y x =>
        simp only [List.cons_append, List.cons.injEq] at h2
        exact hb x d h2.2
    · cases x with
      | nil => simp at h2
      | cons y x =>
        simp only [List.cons_append, List.cons.injEq] at h2
        obtain ⟨rfl, h2⟩ := h2
        cases x with
        | nil => simp at h2
        | cons z x =>
          simp only [List.cons_append, List.cons.injEq] at h2
          obtain ⟨rfl, h2⟩ := h2
          exact ha c x h1

/-- `ReFormatVQL` removes the blanks at the ends of the lines. -/
theorem lines_ne (s : Str) : ∃ l ls, lines s = l :: ls ∧ (∀ c ∈ l, c ≠ 10) := by
  induction s with
  | nil => exact ⟨[], [], rfl, by simp⟩
  | cons c s ih =>
    obtain ⟨l, ls, h1, h2⟩ := ih
    unfold lines
    split
    · exact ⟨[], lines s, rfl, by simp⟩
    · rename_i hc
      rw [h1]
      refine ⟨c :: l, ls, rfl, ?_⟩
      intro d hd
      rcases List.mem_cons.1 hd with rfl | hd
      · exact hc
      · exact h2 d hd

theorem trimRight_cons (c : UInt8) (l : Str) :
    trimRight (c :: l) = if c = 32 ∧ trimRight l = [] then [] else c :: trimRight l := by
  unfold trimRight
  rw [List.reverse_cons, List.dropWhile_append]
  cases h : l.reverse.dropWhile (· == 32) with
  | nil =>
    simp only [List.isEmpty_nil, if_true, List.reverse_nil, and_true]
    by_cases hc : c = 32
    · simp [hc]
    · simp [hc]
  | cons d r => simp

theorem trimRight_mem {c : UInt8} {l : Str} (h : c ∈ trimRight l) : c ∈ l := by
  unfold trimRight at h
  have := List.dropWhile_subset _ (List.mem_reverse.1 h)
  exact List.mem_reverse.1 this

theorem trim_lines (s : Str) : List.intercalate [10] ((lines s).map trimRight) = trimEnds s := by
  induction s with
  | nil => rfl
  | cons c s ih =>
    obtain ⟨l, ls, h1, h2⟩ := lines_ne s
    show _ = trimStep c (trimEnds s)
    rw [← ih, h1]
    unfold lines
    split
    · rename_i hc
      subst hc
      rw [h1]
      show List.intercalate [10] ([] :: trimRight l :: ls.map trimRight) =
        trimStep 10 (List.intercalate [10] (trimRight l :: ls.map trimRight))
      rw [trimStep, if_neg (by simp)]
      simp [List.intercalate]
    · rename_i hc
      rw [h1]
      simp only [List.map_cons]
      rw [trimRight_cons]
      have hh : ∀ t : Str, (∀ d ∈ t, d ≠ 10) → ∀ ts : List Str, (List.intercalate [10] (t :: ts) = [] ∨
          (List.intercalate [10] (t :: ts)).head? = some 10) ↔ t = [] := by
        intro t ht ts
        cases t with
        | nil =>
          cases ts with
          | nil => simp [List.intercalate]
          | cons u us => simp [List.intercalate]
        | cons d t =>
          have := ht d (by simp)
          cases ts <;> simp [List.intercalate, this]
      have hh' := hh (trimRight l) (fun d hd => h2 d (trimRight_mem hd)) (ls.map trimRight)
      unfold trimStep
      by_cases hcc : c = 32 ∧ trimRight l = []
      · rw [if_pos hcc, if_pos ⟨hcc.1, hh'.2 hcc.2⟩, hcc.2]
      · rw [if_neg hcc, if_neg (fun h => hcc ⟨h.1, hh'.1 h.2⟩)]
        cases ls <;> simp [List.intercalate]

/-! ## The state of a visit -/

section
variable {τ : Str → Str} {C : Str → Prop}

/-- In front of a text in `F` the (changed) text `x` is read as `ts`. -/
def Rds (τ : Str → Str) (ts : List Tok) (F : Str → Prop) (x : Str) : Prop :=
  ∀ r, F r → lex (τ x ++ r) = (lex r).map (ts ++ ·)

/-- The fragments are a text that is read as `ts`, and blanks; at least one if `g`. -/
def At (τ : Str → Str) (fs : List Str) (ts : List Tok) (F : Str → Prop) (g : Bool) : Prop :=
  ∃ x b, fs.flatten = x ++ b ∧ Core x ∧ Blk b ∧ (g = true → b ≠ []) ∧ Rds τ ts F x

/-- What may follow a value. -/
def Fv (r : Str) : Prop := folE r = true
/-- A blank follows. -/
def Fo (r : Str) : Prop := ∃ c s, r = c :: s ∧ (c = 32 ∨ c = 10)
/-- What may follow the `=` of an argument. -/
def Fe (r : Str) : Prop := Okay r ∨ Fo r
/-- Anything follows. -/
def Fa (_ : Str) : Prop := True

/-- A text in `K` may be printed next. -/
def Beg (τ : Str → Str) (K : Str → Prop) (fs : List Str) (ts : List Tok) : Prop :=
  ∃ F g, At τ fs ts F g ∧ ∀ b r, Blk b → (g = true → b ≠ []) → K r → F (b ++ r)

/-- The last fragment. -/
def lastF (fs : List Str) : Str := fs.getLast?.getD []

/-- A value has been printed. -/
def Fin (τ : Str → Str) (fs : List Str) (ts : List Tok) : Prop :=
  ∃ g, At τ fs ts Fv g ∧ (g = true ∨ tightAfter.contains (lastF fs) = false)

theorem At.weak {fs : List Str} {ts : List Tok} {F G : Str → Prop} {g : Bool} (h : At τ fs ts F g)
    (i : ∀ r, G r → F r) : At τ fs ts G g := by
  obtain ⟨x, b, h1, h2, h3, h4, h5⟩ := h
  exact ⟨x, b, h1, h2, h3, h4, fun r hr => h5 r (i r hr)⟩

theorem At.text {fs gs : List Str} {ts : List Tok} {F : Str → Prop} {g : Bool} (h : At τ fs ts F g)
    (e : gs.flatten = fs.flatten) : At τ gs ts F g := by
  obtain ⟨x, b, h1, h⟩ := h
  exact ⟨x, b, e.trans h1, h⟩

theorem At.toks {fs : List Str} {ts us : List Tok} {F : Str → Prop} {g : Bool} (h : At τ fs ts F g)
    (e : ts = us) : At τ fs us F g := e ▸ h

theorem Fin.toks {fs : List Str} {ts us : List Tok} (h : Fin τ fs ts) (e : ts = us) : Fin τ fs us := e ▸ h
theorem Beg.toks {K : Str → Prop} {fs : List Str} {ts us : List Tok} (h : Beg τ K fs ts) (e : ts = us) :
    Beg τ K fs us := e ▸ h

theorem At.blank {fs : List Str} {ts : List Tok} {F : Str → Prop} {g : Bool} (h : At τ fs ts F g)
    {s : Str} (hs : Blk s) (hne : s ≠ []) : At τ (fs ++ [s]) ts F true := by
  obtain ⟨x, b, h1, h2, h3, h4, h5⟩ := h
  refine ⟨x, b ++ s, by simp [h1], h2, h3.append hs, fun _ => ?_, h5⟩
  simp [hne]

theorem At.unit (T : Tau τ C) {fs : List Str} {ts : List Tok} {F G : Str → Prop} {g : Bool} (h : At τ fs ts F g)
    (a : List Item) {s : Str} (hs : render a = s) (hC : C s) (hh : Hard s)
    (hF : ∀ b r, Blk b → (g = true → b ≠ []) → G r → F (b ++ (s ++ r))) (hL : ∀ r, G r → Lx a r) :
    At τ (fs ++ [s]) (ts ++ Fmt.toks a) G false := by
  subst hs
  obtain ⟨x, b, h1, h2, h3, h4, h5⟩ := h
  obtain ⟨b', k1, k2, k3, k4⟩ := T.step h2 h3 hh hC
  refine ⟨x ++ (b ++ render a), [], by simp [h1], ?_, Blk.nil, by simp, ?_⟩
  · rw [← List.append_assoc]; exact Core.append hh
  · intro r hr
    rw [k4, List.append_assoc, List.append_assoc, h5 _ (hF b' r k1 (fun e => k3 (h4 e)) hr), blk_lex k1]
    have := hL r hr
    unfold Lx at this
    rw [this]
    cases lex r <;> simp

theorem Beg.unit (T : Tau τ C) {K : Str → Prop} {fs : List Str} {ts : List Tok} {G : Str → Prop} (h : Beg τ K fs ts)
    (a : List Item) {s : Str} (hs : render a = s) (hC : C s) (hh : Hard s)
    (hK : ∀ r, G r → K (s ++ r)) (hL : ∀ r, G r → Lx a r) :
    At τ (fs ++ [s]) (ts ++ Fmt.toks a) G false := by
  obtain ⟨F, g, h1, h2⟩ := h
  exact h1.unit T a hs hC hh (fun b r hb hg hr => h2 b _ hb hg (hK r hr)) hL

theorem At.fin {fs : List Str} {ts : List Tok} {F : Str → Prop} {g : Bool} (h : At τ fs ts F g)
    (i : ∀ r, Fv r → F r) (hg : g = true ∨ tightAfter.contains (lastF fs) = false) : Fin τ fs ts :=
  ⟨g, h.weak i, hg⟩

theorem lastF_push (fs : List Str) (s : Str) : lastF (fs ++ [s]) = s := by simp [lastF]

/-- After a unit that is no opening bracket a value is complete. -/
theorem At.solid {fs : List Str} {s : Str} {ts : List Tok} {F : Str → Prop} {g : Bool}
    (h : At τ (fs ++ [s]) ts F g) (i : ∀ r, Fv r → F r) (hs : tightAfter.contains s = false) :
    Fin τ (fs ++ [s]) ts := h.fin i (.inr (by rw [lastF_push]; exact hs))

theorem At.gap {fs : List Str} {ts : List Tok} (h : At τ fs ts Fv true) : Fin τ fs ts := ⟨true, h, .inl rfl⟩

/-- Everything read and trailing blanks. -/
theorem At.whole (T : Tau τ C) {fs : List Str} {ts : List Tok} {g : Bool} (h : At τ fs ts Fv g) :
    lex (τ fs.flatten) = some ts := by
  obtain ⟨x, b, h1, h2, h3, h4, h5⟩ := h
  obtain ⟨b', k1, k2⟩ := T.fin h2 h3
  have := h5 b' (blk_end k1)
  rw [h1, k2, this]
  have hb := blk_lex k1 []
  rw [List.append_nil, lex_nil] at hb
  simp [hb]

/-- The beginning. -/
theorem at_nil (T : Tau τ C) : At τ [] [] Fa false :=
  ⟨[], [], rfl, .inl rfl, Blk.nil, by simp, fun r _ => by rw [T.nil]; simp⟩

/-! ## Line breaks -/

theorem dropWhile_nil {p : UInt8 → Bool} : ∀ {s : Str}, s.dropWhile p = [] → ∀ c ∈ s, p c = true
  | [], _, c, hc => by simp at hc
  | d :: s, h, c, hc => by
    by_cases hd : p d = true
    · rw [List.dropWhile_cons_of_pos hd] at h
      rcases List.mem_cons.1 hc with rfl | hc
      · exact hd
      · exact dropWhile_nil h c hc
    · rw [List.dropWhile_cons_of_neg hd] at h
      simp at h

theorem dropWhile_head {p : UInt8 → Bool} : ∀ {s r : Str} {d : UInt8}, s.dropWhile p = d :: r → p d = false
  | [], r, d, h => by simp at h
  | e :: s, r, d, h => by
    by_cases he : p e = true
    · rw [List.dropWhile_cons_of_pos he] at h
      exact dropWhile_head h
    · rw [List.dropWhile_cons_of_neg he] at h
      simp only [List.cons.injEq] at h
      rw [← h.1]
      simpa using he

theorem trim_nil {s : Str} (h : trim s = []) : ∀ c ∈ s, isBlank c = true := by
  unfold trim at h
  have h0 : ((s.dropWhile isBlank).reverse.dropWhile isBlank) = [] := by simpa using h
  have h1 := dropWhile_nil h0
  refine dropWhile_nil (p := isBlank) ?_
  cases hd : s.dropWhile isBlank with
  | nil => rfl
  | cons d r =>
    have h2 := h1 d (by rw [hd]; simp)
    rw [dropWhile_head hd] at h2
    exact absurd h2 (by decide)

/-- What a line break does to the fragments. -/
theorem lb_frags (v : Vis) :
    ((lineBreak v).frags = v.frags ∧ (tightAfter.contains (lastF v.frags) = true ∨
      (lastF v.frags).getLast? = some 32)) ∨
    ∃ y z b, v.frags.flatten = y ++ z ∧ (∀ c ∈ z, isBlank c = true) ∧ Blk b ∧ b ≠ [] ∧
      (lineBreak v).frags.flatten = y ++ b := by
  unfold lineBreak
  cases hb : v.breakLines with
  | false =>
    simp only [Bool.not_false, if_true]
    change ((if tightAfter.contains (lastF v.frags) = true then v else
      if (lastF v.frags).getLast? = some 32 then v else push (bs " ") v).frags = _ ∧ _) ∨ _
    by_cases h1 : tightAfter.contains (lastF v.frags) = true
    · exact .inl ⟨by rw [if_pos h1], .inl h1⟩
    · by_cases h2 : (lastF v.frags).getLast? = some 32
      · exact .inl ⟨by rw [if_neg h1, if_pos h2], .inr h2⟩
      · refine .inr ⟨v.frags.flatten, [], [32], by simp, by simp, by intro c hc; simp at hc; exact .inl hc, by simp, ?_⟩
        change (if tightAfter.contains (lastF v.frags) = true then v else
          if (lastF v.frags).getLast? = some 32 then v else push (bs " ") v).frags.flatten = _
        rw [if_neg h1, if_neg h2]
        simp [push, show bs " " = [32] from rfl]
  | true =>
    right
    simp only [Bool.not_true, Bool.false_eq_true, if_false]
    have key : ∃ y z, v.frags.flatten = y ++ z ∧ (∀ c ∈ z, isBlank c = true) ∧
        (if trim (v.frags.getLast?.getD []) = [] then pop v else v).frags.flatten = y := by
      by_cases ht : trim (v.frags.getLast?.getD []) = []
      · rw [if_pos ht]
        unfold pop
        cases hl : v.frags.getLast? with
        | none => exact ⟨v.frags.flatten, [], by simp, by simp, rfl⟩
        | some s =>
          rw [hl] at ht
          obtain ⟨ys, hy⟩ := List.getLast?_eq_some_iff.1 hl
          refine ⟨ys.flatten, s, by rw [hy]; simp, trim_nil ht, ?_⟩
          simp [hy]
      · rw [if_neg ht]
        exact ⟨v.frags.flatten, [], by simp, by simp, rfl⟩
    obtain ⟨y, z, h1, h2, h3⟩ := key
    generalize (if trim (v.frags.getLast?.getD []) = [] then pop v else v) = w at h3 ⊢
    refine ⟨y, z, [10] ++ spaces (lastIndent w), h1, h2, ?_, by simp, ?_⟩
    · exact Blk.append (by intro c hc; simp at hc; exact .inr hc) (spaces_blk _)
    · simp [push, h3]

theorem At.lineBreak {v : Vis} {ts : List Tok} {F : Str → Prop} {g : Bool} (h : At τ v.frags ts F g) :
    At τ (lineBreak v).frags ts F g := by
  rcases lb_frags v with ⟨e, _⟩ | ⟨y, z, b2, e1, e2, e3, e4, e5⟩
  · exact h.text (by rw [e])
  · obtain ⟨x, b, h1, h2, h3, h4, h5⟩ := h
    obtain ⟨a, ha, hab⟩ := core_peel (h1.symm.trans e1) h2 h3 e2
    refine ⟨x, a ++ b2, by rw [e5, ha, List.append_assoc], h2, hab.append e3, fun _ => by simp [e4], h5⟩

theorem lastF_flatten {fs : List Str} {c : UInt8} (h : (lastF fs).getLast? = some c) :
    fs.flatten.getLast? = some c := by
  unfold lastF at h
  cases hl : fs.getLast? with
  | none => rw [hl] at h; simp at h
  | some f =>
    rw [hl] at h
    obtain ⟨ys, hy⟩ := List.getLast?_eq_some_iff.1 hl
    simp only [Option.getD_some] at h
    rw [hy, List.flatten_append, List.flatten_singleton, List.getLast?_append, h]
    rfl

theorem At.lineBreak_gap {v : Vis} {ts : List Tok} {F : Str → Prop} {g : Bool} (h : At τ v.frags ts F g)
    (hg : g = true ∨ tightAfter.contains (lastF v.frags) = false) : At τ (Fmt.lineBreak v).frags ts F true := by
  rcases lb_frags v with ⟨e, ht⟩ | ⟨y, z, b2, e1, e2, e3, e4, e5⟩
  · refine At.text ?_ (congrArg List.flatten e)
    obtain ⟨x, b, h1, h2, h3, h4, h5⟩ := h
    refine ⟨x, b, h1, h2, h3, fun _ => ?_, h5⟩
    rcases hg with hg | hg
    · exact h4 hg
    · rcases ht with ht | ht
      · rw [hg] at ht; exact absurd ht (by decide)
      · rintro rfl
        have := lastF_flatten ht
        rw [h1, List.append_nil] at this
        rcases h2 with rfl | ⟨c, hc, hb⟩
        · simp at this
        · rw [this] at hc
          simp at hc
          rw [← hc] at hb
          exact absurd hb (by decide)
  · obtain ⟨x, b, h1, h2, h3, h4, h5⟩ := h
    obtain ⟨a, ha, hab⟩ := core_peel (h1.symm.trans e1) h2 h3 e2
    refine ⟨x, a ++ b2, by rw [e5, ha, List.append_assoc], h2, hab.append e3, fun _ => by simp [e4], h5⟩

theorem Beg.lineBreak {K : Str → Prop} {v : Vis} {ts : List Tok} (h : Beg τ K v.frags ts) :
    Beg τ K (Fmt.lineBreak v).frags ts := by
  obtain ⟨F, g, h1, h2⟩ := h
  exact ⟨F, g, h1.lineBreak, h2⟩

theorem Fin.lineBreak {v : Vis} {ts : List Tok} (h : Fin τ v.frags ts) : At τ (Fmt.lineBreak v).frags ts Fv true := by
  obtain ⟨g, h1, h2⟩ := h
  exact h1.lineBreak_gap h2

theorem Beg.blank {K : Str → Prop} {fs : List Str} {ts : List Tok} (h : Beg τ K fs ts) {s : Str} (hs : Blk s) :
    Beg τ K (fs ++ [s]) ts := by
  by_cases hne : s = []
  · subst hne
    obtain ⟨F, g, h1, h2⟩ := h
    exact ⟨F, g, h1.text (by simp), h2⟩
  · obtain ⟨F, g, h1, h2⟩ := h
    refine ⟨F, true, h1.blank hs hne, fun b r hb hg hr => h2 b r hb (fun _ => hg rfl) hr⟩

theorem Beg.newLine {K : Str → Prop} {v : Vis} {ts : List Tok} (h : Beg τ K v.frags ts) (n : Nat) :
    Beg τ K (Fmt.newLine n v).frags ts := by
  unfold Fmt.newLine
  dsimp only
  split
  · exact (h.blank (s := [10]) (by intro c hc; simp at hc; exact .inr hc)).blank (spaces_blk n)
  · exact h

theorem Beg.far {K : Str → Prop} {v : Vis} {ts : List Tok} (h : Beg τ K v.frags ts) :
    Beg τ K (breakIfFar v).frags ts := by
  unfold breakIfFar
  split
  · exact h.lineBreak
  · exact h

theorem ab_fold {P : List Str → Prop} {better : Vis → Vis → Bool} {u : Vis} : ∀ (l : List (Vis → Vis)) (w : Vis),
    (∀ cb ∈ l, P (cb u).frags) → P w.frags →
    P (l.foldl (fun res cb => let t := cb u; if better res t then res.merge t else res) w).frags
  | [], w, _, hw => hw
  | c :: l, w, hl, hw => by
    refine ab_fold l _ (fun cb hcb => hl cb (by simp [hcb])) ?_
    dsimp only
    by_cases h : better w (c u) = true
    · rw [if_pos h]; exact hl c (by simp)
    · rw [if_neg h]; exact hw

/-- One of the layouts is chosen. -/
theorem ab_frags {P : List Str → Prop} {better : Vis → Vis → Bool} : ∀ {cbs : List (Vis → Vis)} {v : Vis},
    cbs ≠ [] → (∀ cb ∈ cbs, P (cb v.copy).frags) → P (abTest better cbs v).frags
  | [], v, h, _ => absurd rfl h
  | cb :: cbs, v, _, h => by
    unfold abTest
    dsimp only
    by_cases hb : (!v.breakLines) = true
    · rw [if_pos hb]; exact h cb (by simp)
    · rw [if_neg hb]; exact ab_fold cbs _ (fun c hc => h c (by simp [hc])) (h cb (by simp))

/-! ## Units -/

theorem fv_gap {b s r : Str} (hb : Blk b) (hne : b ≠ []) (hs : notB s) : Fv (b ++ (s ++ r)) :=
  blk_fol hb hne (noB_of hs r)

theorem fv_any {b s r : Str} (hb : Blk b) (hs : notB s) (h0 : folE (s ++ r) = true) : Fv (b ++ (s ++ r)) := by
  by_cases hne : b = []
  · subst hne; exact h0
  · exact fv_gap hb hne hs

theorem hard_solid {s : Str} (h : Solid s) (hk : ∃ c r, s = c :: r ∧ isBlank c = false) : Hard s := ⟨hk, h.1⟩

theorem okay_hard {s : Str} (h : Okay s) : ∃ c r, s = c :: r ∧ isBlank c = false := by
  obtain ⟨c, r, rfl, hc⟩ := h
  simp only [okHead, Bool.and_eq_true, Bool.not_eq_true'] at hc
  exact ⟨c, r, rfl, hc.1.1⟩

/-- A closing bracket, a comma, a colon, an opening bracket behind a value. -/
theorem Fin.punct (T : Tau τ C) {fs : List Str} {ts : List Tok} (h : Fin τ fs ts) (c : UInt8)
    (hc : c ∈ ([40, 41, 91, 93, 125, 44, 58] : Str)) : At τ (fs ++ [[c]]) (ts ++ [⟨.op, [c]⟩]) Fa false := by
  obtain ⟨g, h1, _⟩ := h
  have := h1.unit T (G := Fa) [iop [c]] (s := [c]) rfl (T.plain _ (by
    intro d hd
    simp at hd
    subst hd
    rintro rfl
    exact absurd hc (by decide))) ?_ ?_ ?_
  · exact this
  · simp only [List.mem_cons, List.not_mem_nil, or_false] at hc
    rcases hc with rfl | rfl | rfl | rfl | rfl | rfl | rfl <;> exact ⟨⟨_, _, rfl, rfl⟩, _, rfl, rfl⟩
  · intro b r hb hg _
    refine fv_any hb ?_ ?_
    · simp only [List.mem_cons, List.not_mem_nil, or_false] at hc
      rcases hc with rfl | rfl | rfl | rfl | rfl | rfl | rfl <;> exact ⟨_, _, rfl, rfl, by decide⟩
    · simp only [List.mem_cons, List.not_mem_nil, or_false] at hc
      rcases hc with rfl | rfl | rfl | rfl | rfl | rfl | rfl <;> rfl
  · intro r _
    refine lx_punct c (lx_nil r) ?_
    simp only [List.mem_cons, List.not_mem_nil, or_false] at hc ⊢
    rcases hc with rfl | rfl | rfl | rfl | rfl | rfl | rfl <;> simp

end

end Vfilter.Fmt.Lay
