import Verif.RoundTrip
/-!
# Reading the printed tokens back
-/

set_option linter.all false

namespace Vfilter.Fmt

theorem render_append : ∀ a b : List Item, render (a ++ b) = render a ++ render b
  | [], b => rfl
  | none :: is, b => by simp [render, render_append is b]
  | some t :: is, b => by simp [render, render_append is b]

theorem toks_append (a b : List Item) : toks (a ++ b) = toks a ++ toks b := by simp [toks]
theorem toks_none (a : List Item) : toks (none :: a) = toks a := by simp [toks]
theorem toks_some (t : Tok) (a : List Item) : toks (some t :: a) = t :: toks a := by simp [toks]
theorem toks_nil : toks [] = [] := rfl

/-- In front of `r` the items are read as their tokens. -/
def Lx (is : List Item) (r : Str) : Prop := lex (render is ++ r) = (lex r).map (toks is ++ ·)

theorem lx_nil (r : Str) : Lx [] r := by unfold Lx; simp [render, toks]

theorem lx_append {a b : List Item} {r : Str} (h : Lx a (render b ++ r)) (h2 : Lx b r) :
    Lx (a ++ b) r := by
  unfold Lx at *
  rw [render_append, List.append_assoc, h, h2, toks_append]
  cases lex r <;> simp

theorem lx_sp {a : List Item} {r : Str} (h : Lx a r) : Lx (none :: a) r := by
  unfold Lx at *
  rw [toks_none, ← h]
  exact lex_sp _

theorem lx_tok {t : Tok} {a : List Item} {r : Str}
    (h : firstRule rules (t.text ++ (render a ++ r)) = some (t.kind, t.text, render a ++ r))
    (hne : t.text ≠ []) (h2 : Lx a r) (hk : t.kind ≠ .space := by simp)
    (hm : mkTok t.kind t.text = t := by rfl) : Lx (some t :: a) r := by
  unfold Lx at *
  show lex (t.text ++ render a ++ r) = _
  rw [List.append_assoc, lex_tok h hne hk, h2, toks_some, hm]
  cases lex r <;> simp

/-! ## Names -/

theorem tok_ne {k : TK} {t : Str} (h : IsTok k t) : t ≠ [] := by
  rintro rfl
  exact absurd h (by
    unfold IsTok
    rw [show firstRule rules [] = none from rfl]
    simp)

theorem ident_start {b : Str} (h : IsTok .ident b) (r : Str) : identStart (b ++ r) = true := by
  rcases ident_shape (ident_rule h) with ⟨c, s, rfl, hc, hs⟩ | ⟨m, rfl, hm, hq⟩
  · simp [identStart, hc]
  · rfl

/-- The items behind the first part of a name. -/
def restItems (as : List Str) : List Item := as.flatMap fun b => [iop (bs "."), some ⟨.ident, b⟩]

theorem rest_render : ∀ as : List Str, render (restItems as) = (as.map (46 :: ·)).flatten
  | [] => rfl
  | b :: as => by
    have ih := rest_render as
    simp only [restItems, List.flatMap_cons] at ih ⊢
    rw [render_append, ih]
    simp [render, iop, show bs "." = [46] from rfl]

theorem rest_fol {r : Str} (hr : folE r = true) : ∀ as : List Str, (∀ b ∈ as, IsTok .ident b) →
    folE (render (restItems as) ++ r) = true
  | [], _ => hr
  | b :: as, h => by
    have hb := ident_start (h b (by simp))
      ((as.map (46 :: ·)).flatten ++ r)
    rw [rest_render]
    simp only [List.map_cons, List.flatten_cons, List.cons_append, List.append_assoc, folE]
    simp [hb]

theorem dot_first {s : Str} (h : identStart s = true) :
    firstRule rules (46 :: s) = some (.op, [46], s) := by
  cases s with
  | nil => simp [identStart] at h
  | cons c s =>
    have hd := ident_not_digit c h
    have h22 : firstRule (rules.take 22) (46 :: c :: s) = none := rfl
    have hn : number (46 :: c :: s) = none := by
      rw [number_uns (by intro r e; simp at e), unsigned_dec (by intro r e; simp at e)]
      have : decimal (46 :: c :: s) = none := by
        rw [decimal_eq]
        have h1 : (46 :: c :: s).dropWhile isDigit = 46 :: c :: s := rfl
        have h2 : (46 :: c :: s).takeWhile isDigit = [] := rfl
        have h3 : many1 isDigit (c :: s) = none := by rw [many1_eq]; simp [hd]
        rw [h1, h2]
        simp [h3]
      simp [decNum, this]
    rw [rules_split 22, first_append, h22]
    show firstRule ((.number, number) :: rules.drop 23) _ = _
    simp only [firstRule, hn]
    rfl

theorem lx_rest {r : Str} (hr : folE r = true) : ∀ as : List Str, (∀ b ∈ as, IsTok .ident b) →
    Lx (restItems as) r
  | [], _ => lx_nil r
  | b :: as, h => by
    have ih := lx_rest hr as (fun b hb => h b (by simp [hb]))
    have hf := rest_fol hr as (fun b hb => h b (by simp [hb]))
    have hb := h b (by simp)
    show Lx (iop (bs ".") :: some ⟨.ident, b⟩ :: restItems as) r
    refine lx_tok ?_ (by decide) (lx_tok (ident_fol hb hf) (tok_ne hb) ih)
    have := dot_first (ident_start hb (render (restItems as) ++ r))
    simpa [render, iop, show bs "." = [46] from rfl] using this

/-- The first part of a name. -/
theorem lx_first {k : TK} {a : Str} (hk : k ∈ [TK.symIdent, .ident]) (h : IsTok k a) {is : List Item}
    {r : Str} (hf : folE (render is ++ r) = true) (hi : Lx is r) : Lx (some ⟨k, a⟩ :: is) r := by
  simp only [List.mem_cons, List.not_mem_nil, or_false] at hk
  rcases hk with rfl | rfl
  · exact lx_tok (sym_fol h hf) (tok_ne h) hi
  · exact lx_tok (ident_fol h hf) (tok_ne h) hi

/-- The tokens of a name. -/
theorem name_items {ks : List TK} (hks : ∀ k ∈ ks, k ∈ [TK.symIdent, .ident]) {n : Str}
    (h : DotName ks n) : ∃ k a as, k ∈ ks ∧ IsTok k a ∧ (∀ b ∈ as, IsTok .ident b) ∧
      n = a ++ (as.map (46 :: ·)).flatten ∧ nameItems n = some ⟨k, a⟩ :: restItems as := by
  obtain ⟨a, as, ⟨k, hk, ha⟩, has, hn⟩ := h
  refine ⟨k, a, as, hk, ha, has, hn, ?_⟩
  have h1 := lx_first (hks k hk) ha (rest_fol (r := []) rfl as has) (lx_rest rfl as has)
  unfold Lx at h1
  have h2 : render (some ⟨k, a⟩ :: restItems as) = n := by
    show a ++ render (restItems as) = n
    rw [rest_render, hn]
  rw [h2, List.append_nil, lex_nil] at h1
  have h3 : ∀ as : List Str, (toks (restItems as)).map some = restItems as := by
    intro as
    induction as with
    | nil => rfl
    | cons b as ih =>
      show (toks (iop (bs ".") :: some ⟨.ident, b⟩ :: restItems as)).map some = _
      rw [show iop (bs ".") = some ⟨.op, bs "."⟩ from rfl, toks_some, toks_some]
      simp only [List.map_cons, ih]
      rfl
  simp only [nameItems, h1, Option.map_some, Option.getD_some, List.append_nil, toks_some,
    List.map_cons, h3]

theorem name_render {ks : List TK} (hks : ∀ k ∈ ks, k ∈ [TK.symIdent, .ident]) {n : Str}
    (h : DotName ks n) : render (nameItems n) = n := by
  obtain ⟨k, a, as, _, _, _, hn, hi⟩ := name_items hks h
  rw [hi]
  show a ++ render (restItems as) = n
  rw [rest_render, hn]

theorem lx_name {ks : List TK} (hks : ∀ k ∈ ks, k ∈ [TK.symIdent, .ident]) {n r : Str}
    (h : DotName ks n) (hr : folE r = true) : Lx (nameItems n) r := by
  obtain ⟨k, a, as, hk, ha, has, hn, hi⟩ := name_items hks h
  rw [hi]
  exact lx_first (hks k hk) ha (rest_fol hr as has) (lx_rest hr as has)

theorem solid_first {k : TK} {a : Str} (hk : k ∈ [TK.symIdent, .ident]) (h : IsTok k a) : Solid a := by
  simp only [List.mem_cons, List.not_mem_nil, or_false] at hk
  rcases hk with rfl | rfl
  · exact solid_sym h
  · exact solid_ident h

theorem letter_tight : ∀ c : UInt8, isLetter c = true ∨ c = 96 ∨ c = 45 →
    c ∉ ([32, 40, 123, 61, 91] : Str) := forall_byte (by decide +kernel)

theorem name_head {ks : List TK} (hks : ∀ k ∈ ks, k ∈ [TK.symIdent, .ident]) {n : Str}
    (h : DotName ks n) : ∃ c s, n = c :: s ∧ (isLetter c = true ∨ c = 96 ∨ c = 45) := by
  obtain ⟨a, as, ⟨k, hk, ha⟩, has, hn⟩ := h
  have hid : ∀ u : Str, identifier u = some (u, []) →
      ∃ c s, u = c :: s ∧ (isLetter c = true ∨ c = 96) := by
    intro u hu
    rcases ident_shape hu with ⟨c, s, rfl, hc, hs⟩ | ⟨m, rfl, hm, hq⟩
    · exact ⟨c, s, rfl, .inl hc⟩
    · exact ⟨96, m ++ [96], rfl, .inr rfl⟩
  have : ∃ c s, a = c :: s ∧ (isLetter c = true ∨ c = 96 ∨ c = 45) := by
    have := hks k hk
    simp only [List.mem_cons, List.not_mem_nil, or_false] at this
    rcases this with rfl | rfl
    · obtain ⟨u, rfl, hu⟩ := sym_rule ha
      exact ⟨45, u, rfl, .inr (.inr rfl)⟩
    · obtain ⟨c, s, rfl, hc⟩ := hid a (ident_rule ha)
      exact ⟨c, s, rfl, by rcases hc with h | h <;> simp [h]⟩
  obtain ⟨c, s, rfl, hc⟩ := this
  exact ⟨c, _, by rw [hn]; rfl, hc⟩

theorem solid_name {ks : List TK} (hks : ∀ k ∈ ks, k ∈ [TK.symIdent, .ident]) {n : Str}
    (h : DotName ks n) : Solid n := by
  obtain ⟨c, s, hcs, hc⟩ := name_head hks h
  refine ⟨?_, ?_⟩
  · obtain ⟨a, as, ⟨k, hk, ha⟩, has, hn⟩ := h
    cases hl : as.getLast? with
    | none =>
      rw [List.getLast?_eq_none_iff] at hl
      subst hl
      obtain ⟨hs, _⟩ := solid_first (hks k hk) ha
      rw [hn]
      simpa using hs
    | some b =>
      obtain ⟨ys, hy⟩ := List.getLast?_eq_some_iff.1 hl
      obtain ⟨⟨d, hd, hb⟩, _⟩ := solid_ident (has b (by rw [hy]; simp))
      obtain ⟨zs, hz⟩ := List.getLast?_eq_some_iff.1 hd
      refine ⟨d, getLast_of (a ++ (ys.map (46 :: ·)).flatten ++ 46 :: zs) ?_, hb⟩
      rw [hn, hy, hz]
      simp
  · have := letter_tight c hc
    rw [hcs]
    simp only [List.mem_cons, List.not_mem_nil, or_false, not_or] at this
    rw [Bool.eq_false_iff]
    intro hm
    rw [List.contains_iff_mem] at hm
    simp only [tightAfter, List.mem_cons, List.not_mem_nil, or_false,
      show bs " " = [32] from rfl, show bs "(" = [40] from rfl, show bs "{" = [123] from rfl,
      show bs "=" = [61] from rfl, show bs "[" = [91] from rfl, show bs "=[" = [61, 91] from rfl,
      List.cons.injEq] at hm
    rcases hm with h | h | h | h | h | h
    · exact this.1 h.1
    · exact this.2.1 h.1
    · exact this.2.2.1 h.1
    · exact this.2.2.2.1 h.1
    · exact this.2.2.2.2 h.1
    · exact this.2.2.2.1 h.1

end Vfilter.Fmt
