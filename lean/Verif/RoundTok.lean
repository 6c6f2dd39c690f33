import Verif.RoundText
/-!
# The printed text is split into the printed tokens
-/

set_option linter.all false

namespace Vfilter.Fmt

/-- A character expressions start with. -/
def okHead (c : UInt8) : Bool := !isBlank c && c != 62 && c != 126

/-- The text starts with such a character. -/
def Okay (s : Str) : Prop := ∃ c r, s = c :: r ∧ okHead c = true

theorem Okay.append {s : Str} (h : Okay s) (r : Str) : Okay (s ++ r) := by
  obtain ⟨c, t, rfl, hc⟩ := h
  exact ⟨c, t ++ r, rfl, hc⟩

theorem okHead_name : ∀ c : UInt8, (isLetter c = true ∨ c = 96 ∨ c = 45) → okHead c = true :=
  forall_byte (by decide +kernel)

theorem okHead_num : ∀ c : UInt8, (isDigit c = true ∨ c = 46) → okHead c = true :=
  forall_byte (by decide +kernel)

theorem okay_num {t : Str} (h : IsTok .number t) : Okay t := by
  rcases num_shape (num_rule h) with ⟨c, s, rfl, hc⟩ | ⟨c, s, rfl, hc⟩
  · exact ⟨c, s, rfl, okHead_num c hc⟩
  · exact ⟨45, c :: s, rfl, rfl⟩

theorem okay_kw {k : TK} (hk : k ∈ [TK.bool, .null, .and_, .or_, .not_]) {t : Str} (h : IsTok k t) :
    Okay t := by
  obtain ⟨c, s, rfl, hc, _⟩ := caps_of_mem hk h
  exact ⟨c, s, rfl, okHead_name c (.inl hc)⟩

theorem okay_str {t : Str} (h : IsTok .mlString t ∨ IsTok .string t) : Okay t := by
  rcases h with h | h
  · obtain ⟨u, rfl, _⟩ := ml_rule h
    exact ⟨39, _, rfl, rfl⟩
  · have hq := str_rule h
    cases t with
    | nil => simp [quoted] at hq
    | cons c s =>
      simp only [quoted] at hq
      split at hq
      · rename_i hc
        refine ⟨c, s, rfl, ?_⟩
        rcases hc with rfl | rfl <;> rfl
      · simp at hq

theorem okay_name {ks : List TK} (hks : ∀ k ∈ ks, k ∈ [TK.symIdent, .ident]) {n : Str}
    (h : DotName ks n) : Okay n := by
  obtain ⟨c, s, rfl, hc⟩ := name_head hks h
  exact ⟨c, s, rfl, okHead_name c hc⟩

section
variable (num : Str → Str) (lim : Str → Option Int)

mutual
theorem h_and : ∀ (e : CAnd), wAnd num lim e → Okay (render (itAnd e))
  | .mk cs l rs, hw => by
    rw [itAnd, render_append]; exact (h_or l hw.2.1).append _
theorem h_or : ∀ (e : COr), wOr num lim e → Okay (render (itOr e))
  | .mk cs l rs, hw => by
    rw [itOr, render_append]; exact (h_cond l hw.2.1).append _
theorem h_cond : ∀ (e : CCond), wCond num lim e → Okay (render (itCond e))
  | .not cs c, hw => ⟨78, _, rfl, rfl⟩
  | .cmp cs l r, hw => by
    rw [itCond, render_append]; exact (h_add l hw.2.1).append _
theorem h_add : ∀ (e : CAdd), wAdd num lim e → Okay (render (itAdd e))
  | .mk cs l rs, hw => by
    rw [itAdd, render_append]; exact (h_mul l hw.2.1).append _
theorem h_mul : ∀ (e : CMul), wMul num lim e → Okay (render (itMul e))
  | .mk cs l rs, hw => by
    rw [itMul, render_append]; exact (h_member l hw.2.1).append _
theorem h_member : ∀ (e : CMember), wMember num lim e → Okay (render (itMember e))
  | .mk cs l rs, hw => by
    rw [itMember, render_append]; exact (h_val l hw.2.1).append _
theorem h_val : ∀ (e : CVal), wVal num lim e → Okay (render (itVal e))
  | .mk cs b, hw => h_valB b hw.2
theorem h_valB : ∀ (e : CValB), wValB num lim e → Okay (render (itValB e))
  | .sym s, hw => h_sym s hw
  | .sub c, hw => ⟨40, _, rfl, rfl⟩
  | .str t, hw => by
    have := okay_str hw
    simpa [itValB, render, strTok_text] using this
  | .num t, hw => by
    have := okay_num hw.1
    simpa [itValB, render] using this
  | .bool t, hw => by
    have := okay_kw (k := .bool) (by simp) hw
    simpa [itValB, render] using this
  | .null, hw => ⟨78, _, rfl, rfl⟩
theorem h_sym : ∀ (e : CSym), wSym num lim e → Okay (render (itSym e))
  | .mk cs n called ps, hw => by
    obtain ⟨_, hn, _⟩ := hw
    rw [itSym, render_append, name_render names_ok hn]
    exact (okay_name names_ok hn).append _
end
end

/-! ## Operators -/

theorem lx_op {s : Str} {a : List Item} {r : Str}
    (h : firstRule rules (s ++ (render a ++ r)) = some (.op, s, render a ++ r))
    (h2 : Lx a r) (hne : s ≠ [] := by decide) : Lx (iop s :: a) r :=
  lx_tok (t := ⟨.op, s⟩) h hne h2

theorem punct (c : UInt8) (hc : c ∈ ([40, 41, 91, 93, 123, 125, 44, 58] : Str)) (r : Str) :
    firstRule rules (c :: r) = some (.op, [c], r) := by
  simp only [List.mem_cons, List.not_mem_nil, or_false] at hc
  rcases hc with rfl | rfl | rfl | rfl | rfl | rfl | rfl | rfl <;> cases r <;> rfl

theorem lx_punct {a : List Item} {r : Str} (c : UInt8) (h2 : Lx a r)
    (hc : c ∈ ([40, 41, 91, 93, 123, 125, 44, 58] : Str) := by decide) : Lx (iop [c] :: a) r :=
  lx_op (punct c hc _) h2 (by simp)

/-- The equals sign of an argument. -/
theorem eq_first {s : Str} (h : Okay s) : firstRule rules (61 :: s) = some (.op, [61], s) := by
  obtain ⟨c, r, rfl, hc⟩ := h
  have h25 : firstRule (rules.take 25) (61 :: c :: r) = none := rfl
  have ho : operator (61 :: c :: r) = some ([61], c :: r) := by
    simp only [okHead, Bool.and_eq_true, bne_iff_ne, ne_eq] at hc
    unfold operator
    have h1 : ¬ c = 62 := hc.1.2
    have h2 : ¬ c = 126 := hc.2
    have : ops2.contains (List.take 2 (61 :: c :: r)) = false := by
      simp [ops2, show bs "<>" = [60, 62] from rfl, show bs "!=" = [33, 61] from rfl,
        show bs "<=" = [60, 61] from rfl, show bs ">=" = [62, 61] from rfl,
        show bs "=>" = [61, 62] from rfl, show bs "=~" = [61, 126] from rfl, h1, h2]
    simp only [this]
    rfl
  rw [rules_split 25, first_append, h25]
  show firstRule ((.op, operator) :: rules.drop 26) _ = _
  simp only [firstRule, ho]

theorem fold_head {a c : UInt8} {w cs : Str} {p : Str × Str}
    (h : foldPrefix (a :: w) (c :: cs) = some p) : upper c = a := by
  simp only [foldPrefix] at h
  split at h
  · rename_i hc; simpa using hc
  · simp at h

theorem keyword_head {a c : UInt8} {w cs : Str} {p : Str × Str}
    (h : keyword (a :: w) (c :: cs) = some p) : upper c = a := by
  unfold keyword at h
  cases hf : foldPrefix (a :: w) (c :: cs) with
  | none => rw [hf] at h; simp at h
  | some q => exact fold_head hf

/-- The first character is neither white space nor a `b`. -/
def notB (s : Str) : Prop := ∃ c r, s = c :: r ∧ isWS c = false ∧ upper c ≠ 66

theorem noB_of {s : Str} (h : notB s) (r : Str) : noB (s ++ r) = true := by
  obtain ⟨c, t, rfl, h1, h2⟩ := h
  unfold noB
  rw [List.cons_append, List.dropWhile_cons_of_neg (by simp [h1])]
  simpa using h2

theorem noB_sp (s : Str) : noB (32 :: s) = noB s := by
  unfold noB
  rw [List.dropWhile_cons_of_pos rfl]

theorem fol_sp {s : Str} (h : noB s = true) : folE (32 :: s) = true := by
  simp [folE, h, show isBlank 32 = true from rfl]

theorem upper_ws : ∀ c : UInt8, (upper c = 65 ∨ upper c = 79) → isWS c = false :=
  forall_byte (by decide +kernel)

theorem and_notB {op : Str} (h : IsTok .and_ op ∨ IsTok .altAnd op) : notB op := by
  rcases h with h | h
  · obtain ⟨f, hf, hs⟩ := first_mem h
    simp [rules] at hf
    rw [hf] at hs
    cases op with
    | nil => simp [keyword, foldPrefix, show bs "AND" = [65, 78, 68] from rfl] at hs
    | cons c cs =>
      have := keyword_head (a := 65) (w := [78, 68]) hs
      exact ⟨c, cs, rfl, upper_ws c (.inl this), by rw [this]; decide⟩
  · rw [amp_eq h]; exact ⟨38, [38], rfl, rfl, by decide⟩

theorem or_notB {op : Str} (h : IsTok .or_ op ∨ IsTok .altOr op) : notB op := by
  rcases h with h | h
  · obtain ⟨f, hf, hs⟩ := first_mem h
    simp [rules] at hf
    rw [hf] at hs
    cases op with
    | nil => simp [keyword, foldPrefix, show bs "OR" = [79, 82] from rfl] at hs
    | cons c cs =>
      have := keyword_head (a := 79) (w := [82]) hs
      exact ⟨c, cs, rfl, upper_ws c (.inr this), by rw [this]; decide⟩
  · obtain ⟨f, hf, hs⟩ := first_mem h
    simp [rules] at hf
    rw [hf] at hs
    cases op with
    | nil => exact absurd rfl (tok_ne h)
    | cons c cs =>
      by_cases hc : c = 124
      · exact ⟨c, cs, rfl, by rw [hc]; rfl, by rw [hc]; decide⟩
      · rw [many1_eq, List.takeWhile_cons_of_neg (by simpa using hc)] at hs
        simp at hs

theorem lx_and {op : Str} (h : IsTok .and_ op ∨ IsTok .altAnd op) {a : List Item} {r : Str} (h2 : Lx a r) :
    Lx (some (andTok op) :: none :: a) r := by
  unfold andTok
  by_cases ha : IsTok .altAnd op
  · rw [if_pos ha]
    have := amp_eq ha
    subst this
    exact lx_tok rfl (by decide) (lx_sp h2)
  · rw [if_neg ha]
    exact lx_tok (kw_sp (by simp) (h.resolve_right ha)) (tok_ne (h.resolve_right ha)) (lx_sp h2)

theorem lx_or {op : Str} (h : IsTok .or_ op ∨ IsTok .altOr op) {a : List Item} {r : Str} (h2 : Lx a r) :
    Lx (some (orTok op) :: none :: a) r := by
  unfold orTok
  by_cases ha : IsTok .altOr op
  · rw [if_pos ha]
    exact lx_tok (bar_sp _ ha) (tok_ne ha) (lx_sp h2)
  · rw [if_neg ha]
    exact lx_tok (kw_sp (by simp) (h.resolve_right ha)) (tok_ne (h.resolve_right ha)) (lx_sp h2)

theorem lx_cmp {op : Str} (h : op ∈ cmpOps) {a : List Item} {r : Str} (h2 : Lx a r) :
    Lx (some (cmpTok op) :: none :: a) r := by
  simp only [cmpOps, List.mem_cons, List.not_mem_nil, or_false] at h
  rcases h with rfl | rfl | rfl | rfl | rfl | rfl | rfl | rfl | rfl <;>
    exact lx_tok rfl (by decide) (lx_sp h2) (by decide)

theorem cmp_notB {op : Str} (h : op ∈ cmpOps) : notB op := by
  simp only [cmpOps, List.mem_cons, List.not_mem_nil, or_false] at h
  rcases h with rfl | rfl | rfl | rfl | rfl | rfl | rfl | rfl | rfl <;>
    exact ⟨_, _, rfl, rfl, by decide⟩

theorem ar_notB {op : Str} (h : op ∈ [bs "+", bs "-", bs "*", bs "/"]) : notB op := by
  simp only [List.mem_cons, List.not_mem_nil, or_false] at h
  rcases h with rfl | rfl | rfl | rfl <;> exact ⟨_, _, rfl, rfl, by decide⟩

theorem lx_ar {op : Str} (h : op ∈ [bs "+", bs "-", bs "*", bs "/"]) {a : List Item} {r : Str}
    (h2 : Lx a r) : Lx (iop op :: none :: a) r := by
  simp only [List.mem_cons, List.not_mem_nil, or_false] at h
  rcases h with rfl | rfl | rfl | rfl <;> exact lx_tok rfl (by decide) (lx_sp h2)

/-! ## What follows -/

section
variable {num : Str → Str} {lim : Str → Option Int}

theorem fol_andTs {r : Str} (hr : folE r = true) : ∀ {rs : List CAndT}, wAndTs num lim rs →
    folE (render (itAndTs rs) ++ r) = true
  | [], _ => hr
  | .mk op t :: rs, hw => by
    simp only [itAndTs, render, andTok_text, List.cons_append, List.append_assoc]
    exact fol_sp (by rw [noB_sp]; exact noB_of (and_notB hw.1) _)

theorem fol_orTs {r : Str} (hr : folE r = true) : ∀ {rs : List COrT}, wOrTs num lim rs →
    folE (render (itOrTs rs) ++ r) = true
  | [], _ => hr
  | .mk op t :: rs, hw => by
    simp only [itOrTs, render, orTok_text, List.cons_append, List.append_assoc]
    exact fol_sp (noB_of (or_notB hw.1) _)

theorem fol_cmp {r : Str} (hr : folE r = true) : ∀ {rs : Option CCmpT}, wCmp num lim rs →
    folE (render (itCmp rs) ++ r) = true
  | none, _ => hr
  | some (.mk op t), hw => by
    simp only [itCmp, render, cmpTok_text, List.cons_append, List.append_assoc]
    exact fol_sp (noB_of (cmp_notB hw.1) _)

theorem ar_add {op : Str} (h : op ∈ [bs "+", bs "-"]) : op ∈ [bs "+", bs "-", bs "*", bs "/"] := by
  simp only [List.mem_cons, List.not_mem_nil, or_false] at h ⊢
  rcases h with h | h <;> simp [h]

theorem ar_mul {op : Str} (h : op ∈ [bs "*", bs "/"]) : op ∈ [bs "+", bs "-", bs "*", bs "/"] := by
  simp only [List.mem_cons, List.not_mem_nil, or_false] at h ⊢
  rcases h with h | h <;> simp [h]

theorem fol_addTs {r : Str} (hr : folE r = true) : ∀ {rs : List CAddT}, wAddTs num lim rs →
    folE (render (itAddTs rs) ++ r) = true
  | [], _ => hr
  | .mk op t :: rs, hw => by
    simp only [itAddTs, render, iop, List.cons_append, List.append_assoc]
    exact fol_sp (noB_of (ar_notB (ar_add hw.1)) _)

theorem fol_mulTs {r : Str} (hr : folE r = true) : ∀ {rs : List CMulT}, wMulTs num lim rs →
    folE (render (itMulTs rs) ++ r) = true
  | [], _ => hr
  | .mk op t :: rs, hw => by
    simp only [itMulTs, render, iop, List.cons_append, List.append_assoc]
    exact fol_sp (noB_of (ar_notB (ar_mul hw.1)) _)

theorem fol_mTerms {r : Str} (hr : folE r = true) : ∀ {rs : List CMTerm}, wMTerms num lim rs →
    folE (render (itMTerms rs) ++ r) = true
  | [], _ => hr
  | .range i j :: rs, hw => rfl
  | .index i :: rs, hw => rfl
  | .field n :: rs, hw => by
    have := ident_start hw.1 (render (itMTerms rs) ++ r)
    simp only [itMTerms, render, iop, show bs "." = [46] from rfl, List.cons_append, List.nil_append,
      List.append_assoc, folE]
    simp [this]
  | .empty :: rs, hw => hw.elim

theorem fol_commaTs {r : Str} (hr : folE r = true) : ∀ {rs : List CCommaT}, wCommaTs num lim rs →
    folE (render (itCommaTs rs) ++ r) = true
  | [], _ => hr
  | .mk c1 c2 none :: rs, hw => rfl
  | .mk c1 c2 (some t) :: rs, hw => rfl

theorem fol_clause {r : Str} (hr : folE r = true) (c : Option CComma) {t : Tok}
    (ht : t = ⟨.where_, bs "WHERE"⟩ ∨ t = ⟨.groupBy, bs "GROUP BY"⟩) :
    folE (render (itClause t c) ++ r) = true := by
  cases c with
  | none => exact hr
  | some c => rcases ht with rfl | rfl <;> rfl

theorem fol_ob {r : Str} (hr : folE r = true) (ob : Option (Str × Bool)) :
    folE (render (obItems ob) ++ r) = true := by
  rcases ob with _ | ⟨k, d⟩
  · exact hr
  · rfl

theorem fol_lim {r : Str} (hr : folE r = true) (li : Option Int) :
    folE (render (limItems li) ++ r) = true := by
  cases li with
  | none => exact hr
  | some n => rfl

theorem gap_fol {g : List Item} (hg : g = [] ∨ g = [none]) {c : UInt8} {r : Str}
    (hc : c ∈ ([41, 93] : Str)) : folE (render (g ++ [iop [c]]) ++ r) = true := by
  simp only [List.mem_cons, List.not_mem_nil, or_false] at hc
  rcases hg with rfl | rfl <;> rcases hc with rfl | rfl <;> rfl

theorem lx_gap {g : List Item} (hg : g = [] ∨ g = [none]) {a : List Item} {r : Str} (h : Lx a r) :
    Lx (g ++ a) r := by
  rcases hg with rfl | rfl
  · exact h
  · exact lx_sp h

theorem gap_sel {g : List Item} (hg : g = [] ∨ g = [none]) (r : Str) :
    folE (render (g ++ [none, iop (bs "}")]) ++ r) = true := by
  rcases hg with rfl | rfl <;> rfl

end

/-! ## Reading -/

section
variable (num : Str → Str) (lim : Str → Option Int)

theorem lx_ob {r : Str} (hr : folE r = true) (ob : Option (Str × Bool))
    (hob : ∀ k, ob.map Prod.fst = some k → IsTok .ident k) : Lx (obItems ob) r := by
  rcases ob with _ | ⟨k, d⟩
  · exact lx_nil r
  · have hk := hob k rfl
    refine lx_sp (lx_tok rfl (by decide) (lx_sp ?_))
    cases d with
    | false => exact lx_tok (ident_fol hk hr) (tok_ne hk) (lx_nil r)
    | true =>
      refine lx_tok (ident_fol hk rfl) (tok_ne hk) (lx_sp (lx_tok ?_ (by decide) (lx_nil r)))
      have := word_fol' (c := 68) (t := [69, 83, 67]) rfl (by decide) hr
      exact this

theorem lx_lim {r : Str} (hr : folE r = true) (li : Option Int)
    (hl : ∀ n, li = some n → IsTok .number (intText n) ∧ lim (intText n) = some n) :
    Lx (limItems li) r := by
  cases li with
  | none => exact lx_nil r
  | some n =>
    exact lx_sp (lx_tok rfl (by decide) (lx_sp
      (lx_tok (num_fol (hl n rfl).1 hr) (tok_ne (hl n rfl).1) (lx_nil r))))

mutual
theorem l_and : ∀ (e : CAnd) {r : Str}, wAnd num lim e → folE r = true → Lx (itAnd e) r
  | .mk cs l rs, r, hw, hr => by
    rw [itAnd]
    exact lx_append (l_or l hw.2.1 (fol_andTs hr hw.2.2)) (l_andTs rs hw.2.2 hr)
theorem l_andTs : ∀ (rs : List CAndT) {r : Str}, wAndTs num lim rs → folE r = true → Lx (itAndTs rs) r
  | [], r, _, _ => lx_nil r
  | .mk op t :: rs, r, hw, hr => by
    rw [itAndTs]
    exact lx_sp (lx_sp (lx_and hw.1 (lx_append (l_or t hw.2.1 (fol_andTs hr hw.2.2))
      (l_andTs rs hw.2.2 hr))))
theorem l_or : ∀ (e : COr) {r : Str}, wOr num lim e → folE r = true → Lx (itOr e) r
  | .mk cs l rs, r, hw, hr => by
    rw [itOr]
    exact lx_append (l_cond l hw.2.1 (fol_orTs hr hw.2.2)) (l_orTs rs hw.2.2 hr)
theorem l_orTs : ∀ (rs : List COrT) {r : Str}, wOrTs num lim rs → folE r = true → Lx (itOrTs rs) r
  | [], r, _, _ => lx_nil r
  | .mk op t :: rs, r, hw, hr => by
    rw [itOrTs]
    exact lx_sp (lx_or hw.1 (lx_append (l_cond t hw.2.1 (fol_orTs hr hw.2.2))
      (l_orTs rs hw.2.2 hr)))
theorem l_cond : ∀ (e : CCond) {r : Str}, wCond num lim e → folE r = true → Lx (itCond e) r
  | .not cs c, r, hw, hr => by
    rw [itCond]
    exact lx_tok rfl (by decide) (lx_sp (l_cond c hw.2 hr))
  | .cmp cs l c, r, hw, hr => by
    rw [itCond]
    exact lx_append (l_add l hw.2.1 (fol_cmp hr hw.2.2)) (l_cmp c hw.2.2 hr)
theorem l_cmp : ∀ (c : Option CCmpT) {r : Str}, wCmp num lim c → folE r = true → Lx (itCmp c) r
  | none, r, _, _ => lx_nil r
  | some (.mk op t), r, hw, hr => by
    rw [itCmp]
    exact lx_sp (lx_cmp hw.1 (l_add t hw.2 hr))
theorem l_add : ∀ (e : CAdd) {r : Str}, wAdd num lim e → folE r = true → Lx (itAdd e) r
  | .mk cs l rs, r, hw, hr => by
    rw [itAdd]
    exact lx_append (l_mul l hw.2.1 (fol_addTs hr hw.2.2)) (l_addTs rs hw.2.2 hr)
theorem l_addTs : ∀ (rs : List CAddT) {r : Str}, wAddTs num lim rs → folE r = true → Lx (itAddTs rs) r
  | [], r, _, _ => lx_nil r
  | .mk op t :: rs, r, hw, hr => by
    rw [itAddTs]
    exact lx_sp (lx_ar (ar_add hw.1) (lx_append (l_mul t hw.2.1 (fol_addTs hr hw.2.2))
      (l_addTs rs hw.2.2 hr)))
theorem l_mul : ∀ (e : CMul) {r : Str}, wMul num lim e → folE r = true → Lx (itMul e) r
  | .mk cs l rs, r, hw, hr => by
    rw [itMul]
    exact lx_append (l_member l hw.2.1 (fol_mulTs hr hw.2.2)) (l_mulTs rs hw.2.2 hr)
theorem l_mulTs : ∀ (rs : List CMulT) {r : Str}, wMulTs num lim rs → folE r = true → Lx (itMulTs rs) r
  | [], r, _, _ => lx_nil r
  | .mk op t :: rs, r, hw, hr => by
    rw [itMulTs]
    exact lx_sp (lx_ar (ar_mul hw.1) (lx_append (l_val t hw.2.1 (fol_mulTs hr hw.2.2))
      (l_mulTs rs hw.2.2 hr)))
theorem l_member : ∀ (e : CMember) {r : Str}, wMember num lim e → folE r = true → Lx (itMember e) r
  | .mk cs l rs, r, hw, hr => by
    rw [itMember]
    exact lx_append (l_val l hw.2.1 (fol_mTerms hr hw.2.2.1)) (l_mTerms rs hw.2.2.1 hr)
theorem l_mTerms : ∀ (rs : List CMTerm) {r : Str}, wMTerms num lim rs → folE r = true → Lx (itMTerms rs) r
  | [], r, _, _ => lx_nil r
  | .range i j :: rs, r, hw, hr => by
    rw [itMTerms]
    refine lx_punct 91 (lx_append (l_optVal i hw.1 rfl) (lx_punct 58 ?_))
    have h1 : Lx (itOptVal j ++ iop (bs "]") :: itMTerms rs) r :=
      lx_append (l_optVal j hw.2.1 rfl) (lx_punct 93 (l_mTerms rs hw.2.2 hr))
    cases j with
    | none => exact h1
    | some x => obtain ⟨cs, b⟩ := x; cases b <;> first | exact h1 | exact lx_sp h1
  | .index i :: rs, r, hw, hr => by
    rw [itMTerms]
    exact lx_punct 91 (lx_append (l_val i hw.1 rfl) (lx_punct 93 (l_mTerms rs hw.2 hr)))
  | .field n :: rs, r, hw, hr => by
    rw [itMTerms]
    refine lx_op ?_ (lx_tok (ident_fol hw.1 (fol_mTerms hr hw.2)) (tok_ne hw.1) (l_mTerms rs hw.2 hr))
    have := dot_first (ident_start hw.1 (render (itMTerms rs) ++ r))
    simpa [render, show bs "." = [46] from rfl] using this
  | .empty :: rs, r, hw, _ => hw.elim
theorem l_optVal : ∀ (x : Option CVal) {r : Str}, wOptVal num lim x → folE r = true → Lx (itOptVal x) r
  | none, r, _, _ => lx_nil r
  | some x, r, hw, hr => l_val x hw hr
theorem l_comma : ∀ (e : CComma) {r : Str}, wComma num lim e → folE r = true → Lx (itComma e) r
  | .mk cs l rs, r, hw, hr => by
    rw [itComma]
    exact lx_append (l_and l hw.2.1 (fol_commaTs hr hw.2.2)) (l_commaTs rs hw.2.2 hr)
theorem l_commaTs : ∀ (rs : List CCommaT) {r : Str}, wCommaTs num lim rs → folE r = true →
    Lx (itCommaTs rs) r
  | [], r, _, _ => lx_nil r
  | .mk c1 c2 none :: rs, r, hw, hr => by
    have h := l_commaTs rs hw.2.2 hr
    cases rs with
    | nil => exact lx_punct 44 h
    | cons x xs => exact lx_punct 44 (lx_sp h)
  | .mk c1 c2 (some t) :: rs, r, hw, hr => by
    rw [itCommaTs]
    exact lx_punct 44 (lx_sp (lx_append (l_and t hw.2.2.1 (fol_commaTs hr hw.2.2.2))
      (l_commaTs rs hw.2.2.2 hr)))
theorem l_val : ∀ (e : CVal) {r : Str}, wVal num lim e → folE r = true → Lx (itVal e) r
  | .mk cs b, r, hw, hr => l_valB b hw.2 hr
theorem l_valB : ∀ (e : CValB) {r : Str}, wValB num lim e → folE r = true → Lx (itValB e) r
  | .sym s, r, hw, hr => l_sym s hw hr
  | .sub c, r, hw, hr => by
    rw [itValB]
    exact lx_punct 40 (lx_append (l_comma c hw (gap_fol (commaGap_cases c) (by decide)))
      (lx_gap (commaGap_cases c) (lx_punct 41 (lx_nil r))))
  | .str t, r, hw, hr => by
    rw [itValB, strTok]
    by_cases h : IsTok .mlString t
    · rw [if_pos h]
      exact lx_tok (ml_fol _ h) (tok_ne h) (lx_nil r)
    · rw [if_neg h]
      have h' := hw.resolve_left h
      exact lx_tok (str_fol h' hr) (tok_ne h') (lx_nil r)
  | .num t, r, hw, hr => lx_tok (num_fol hw.1 hr) (tok_ne hw.1) (lx_nil r)
  | .bool t, r, hw, hr => lx_tok (kw_fol (by simp) hw hr) (tok_ne hw) (lx_nil r)
  | .null, r, hw, hr => by
    have h : IsTok .null (bs "NULL") := by decide
    exact lx_tok (kw_fol (by simp) h hr) (tok_ne h) (lx_nil r)
theorem l_sym : ∀ (e : CSym) {r : Str}, wSym num lim e → folE r = true → Lx (itSym e) r
  | .mk cs n called ps, r, hw, hr => by
    obtain ⟨_, hn, hps, _⟩ := hw
    rw [itSym]
    cases called with
    | false => exact lx_append (lx_name names_ok hn hr) (lx_nil r)
    | true =>
      exact lx_append (lx_name names_ok hn rfl) (lx_punct 40
        (lx_append (l_args ps hps rfl) (lx_punct 41 (lx_nil r))))
theorem l_args : ∀ (as : List CArg) {r : Str}, wArgs num lim as → folE r = true → Lx (itArgs as) r
  | [], r, _, _ => lx_nil r
  | a :: as, r, hw, hr => by
    have h := l_args as hw.2 hr
    cases as with
    | nil => exact lx_append (lx_append (l_arg a hw.1 hr) (lx_nil _)) (lx_nil r)
    | cons b bs' =>
      show Lx (itArg a ++ [iop (bs ","), none] ++ itArgs (b :: bs')) r
      rw [List.append_assoc]
      exact lx_append (l_arg a hw.1 rfl) (lx_punct 44 (lx_sp h))
theorem l_arg : ∀ (a : CArg) {r : Str}, wArg num lim a → folE r = true → Lx (itArg a) r
  | .mk cs n v, r, hw, hr => by
    obtain ⟨_, hn, hv⟩ := hw
    rw [itArg]
    have h := l_argV v hv hr
    refine lx_tok (ident_fol hn rfl) (tok_ne hn) (lx_op (eq_first ?_) h)
    cases v with
    | expr e => exact (h_and num lim e hv).append _
    | select q => exact ⟨123, _, rfl, rfl⟩
    | array c => exact ⟨91, _, rfl, rfl⟩
    | empty => exact ⟨91, _, rfl, rfl⟩
theorem l_argV : ∀ (v : CArgV) {r : Str}, wArgV num lim v → folE r = true → Lx (itArgV v) r
  | .expr e, r, hw, hr => l_and e hw hr
  | .select q, r, hw, hr => by
    rw [itArgV]
    exact lx_punct 123 (lx_sp (lx_append (l_select q hw (gap_sel (selectGap_cases q) r))
      (lx_gap (selectGap_cases q) (lx_sp (lx_punct 125 (lx_nil r))))))
  | .array c, r, hw, hr => by
    rw [itArgV]
    exact lx_punct 91 (lx_append (l_comma c hw (gap_fol (commaGap_cases c) (by decide)))
      (lx_gap (commaGap_cases c) (lx_punct 93 (lx_nil r))))
  | .empty, r, hw, hr => lx_punct 91 (lx_punct 93 (lx_nil r))
theorem l_select : ∀ (q : CSelect) {r : Str}, wSelect num lim q → folE r = true → Lx (itSelect q) r
  | .mk cs ex all cols from_ wh gb ob li, r, hw, hr => by
    obtain ⟨_, hcols, hall, hfrom, hwh, hgb, hob, hlim⟩ := hw
    have f1 := fol_lim hr li
    have l1 := lx_lim lim hr li hlim
    have f2 := fol_ob f1 ob
    have l2 : Lx (obItems ob ++ limItems li) r := lx_append (lx_ob f1 ob hob) l1
    have f2' : folE (render (obItems ob ++ limItems li) ++ r) = true := by
      rw [render_append, List.append_assoc]; exact f2
    have l3 := lx_append (l_clause gb ⟨.groupBy, bs "GROUP BY"⟩ (.inr rfl) hgb f2') l2
    have f3 : folE (render (itClause ⟨.groupBy, bs "GROUP BY"⟩ gb ++ (obItems ob ++ limItems li)) ++ r) =
        true := by
      rw [render_append, List.append_assoc]; exact fol_clause f2' gb (.inr rfl)
    have l4 := lx_append (l_clause wh ⟨.where_, bs "WHERE"⟩ (.inl rfl) hwh f3) l3
    have f4 : folE (render (itClause ⟨.where_, bs "WHERE"⟩ wh ++
        (itClause ⟨.groupBy, bs "GROUP BY"⟩ gb ++ (obItems ob ++ limItems li))) ++ r) = true := by
      rw [render_append, List.append_assoc]; exact fol_clause f3 wh (.inl rfl)
    have l5 := lx_append (l_plugin from_ hfrom f4) l4
    have l6 := lx_append (l_cols cols hcols (r := render (none :: some ⟨.from_, bs "FROM"⟩ :: none :: _) ++ r)
      rfl) (lx_sp (lx_tok (t := ⟨.from_, bs "FROM"⟩) rfl (by decide) (lx_sp l5)))
    have l7 : Lx ((if all then iop (bs "*") :: (if cols.isEmpty then [] else [iop (bs ","), none]) else []) ++
        (itCols cols ++ none :: some ⟨.from_, bs "FROM"⟩ :: none ::
        (itPlugin from_ ++
        (itClause ⟨.where_, bs "WHERE"⟩ wh ++
        (itClause ⟨.groupBy, bs "GROUP BY"⟩ gb ++ (obItems ob ++ limItems li)))))) r := by
      cases all with
      | false => exact l6
      | true =>
        cases cols with
        | nil => exact lx_op rfl l6
        | cons c cs => exact lx_op rfl (lx_punct 44 (lx_sp l6))
    rw [itSelect_eq]
    cases ex with
    | false => exact lx_tok rfl (by decide) (lx_sp l7)
    | true => exact lx_tok (t := ⟨.explain, bs "EXPLAIN"⟩) rfl (by decide) (lx_sp
        (lx_tok rfl (by decide) (lx_sp l7)))
theorem l_clause : ∀ (c : Option CComma) (t : Tok) {r : Str}, (t = ⟨.where_, bs "WHERE"⟩ ∨ t = ⟨.groupBy, bs "GROUP BY"⟩) → wOptComma num lim c → folE r = true →
    Lx (itClause t c) r
  | none, t, r, _, _, _ => lx_nil r
  | some c, t, r, ht, hw, hr => by
    have h := l_comma c hw hr
    rw [itClause]
    rcases ht with rfl | rfl
    · exact lx_sp (lx_tok rfl (by decide) (lx_sp h))
    · exact lx_sp (lx_tok rfl (by decide) (lx_sp h))
theorem l_cols : ∀ (cs : List CCol) {r : Str}, wCols num lim cs → folE r = true → Lx (itCols cs) r
  | [], r, _, _ => lx_nil r
  | c :: cs, r, hw, hr => by
    have h := l_cols cs hw.2 hr
    cases cs with
    | nil => exact lx_append (lx_append (l_col c hw.1 hr) (lx_nil _)) (lx_nil r)
    | cons b bs' =>
      show Lx (itCol c ++ [iop (bs ","), none] ++ itCols (b :: bs')) r
      rw [List.append_assoc]
      exact lx_append (l_col c hw.1 rfl) (lx_punct 44 (lx_sp h))
theorem l_col : ∀ (c : CCol) {r : Str}, wCol num lim c → folE r = true → Lx (itCol c) r
  | .mk cs b a, r, hw, hr => by
    obtain ⟨_, hb, ha⟩ := hw
    rw [itCol]
    by_cases hn : a = []
    · rw [if_pos hn]
      exact lx_append (l_colB b hb hr) (lx_nil r)
    · rw [if_neg hn]
      have ha' := ha.resolve_left hn
      exact lx_append (l_colB b hb rfl) (lx_sp (lx_tok rfl (by decide) (lx_sp
        (lx_tok (ident_fol ha' hr) (tok_ne ha') (lx_nil r)))))
theorem l_colB : ∀ (b : CColB) {a r : Str}, wColB num lim b a → folE r = true → Lx (itColB b) r
  | .star, a, r, hw, hr => by
    rw [itColB]
    refine lx_op ?_ (lx_nil r)
    show firstRule rules (42 :: r) = some (.op, [42], r)
    cases r <;> rfl
  | .expr e, a, r, hw, hr => l_and e hw hr
  | .select q, a, r, hw, hr => by
    rw [itColB]
    exact lx_punct 123 (lx_sp (lx_append (l_select q hw (gap_sel (selectGap_cases q) r))
      (lx_gap (selectGap_cases q) (lx_sp (lx_punct 125 (lx_nil r))))))
theorem l_plugin : ∀ (p : CPlugin) {r : Str}, wPlugin num lim p → folE r = true → Lx (itPlugin p) r
  | .mk n call args, r, hw, hr => by
    obtain ⟨hn, has, _⟩ := hw
    rw [itPlugin]
    cases call with
    | false => exact lx_append (lx_name name_ok hn hr) (lx_nil r)
    | true =>
      exact lx_append (lx_name name_ok hn rfl) (lx_punct 40
        (lx_append (l_args args has rfl) (lx_punct 41 (lx_nil r))))
end
end

end Vfilter.Fmt
