import Verif.RoundRead
/-!
# Every parsed statement is well formed: the induction
-/

set_option linter.all false

namespace Vfilter.Fmt

section
variable {num : Str → Str} {lim : Str → Option Int}

/-- What the parsers return with this much fuel. -/
structure Reads (num : Str → Str) (lim : Str → Option Int) (n : Nat) : Prop where
  and_ : Post (pAnd lim n) (fun e => kAnd num e → wAnd id lim e)
  or_ : Post (pOr lim n) (fun e => kOr num e → wOr id lim e)
  cond : Post (pCond lim n) (fun e => kCond num e → wCond id lim e)
  add : Post (pAdd lim n) (fun e => kAdd num e → wAdd id lim e)
  mul : Post (pMul lim n) (fun e => kMul num e → wMul id lim e)
  member : Post (pMember lim n) (fun e => kMember num e → wMember id lim e)
  comma : Post (pComma lim n) (fun e => kComma num e → wComma id lim e)
  val : Post (pVal lim n) (fun e => kVal num e → wVal id lim e)
  sym : Post (pSym lim n) (fun e => kSym num e → wSym id lim e)
  arg : Post (pArg lim n) (fun e => kArg num e → wArg id lim e)
  col : Post (pCol lim n) (fun e => kCol num e → wCol id lim e)
  plugin : Post (pPlugin lim n) (fun e => kPlugin num e → wPlugin id lim e)
  select : Post (pSelect lim n) (fun e => kSelect num e → wSelect id lim e)

theorem post_fuel {α : Type} (Q : α → Prop) : Post (fun _ => .fuel : P α) Q := fun ts a r _ h => by simp at h

theorem Post.err {α : Type} (Q : α → Prop) : Post (fun ts => .err ts : P α) Q := fun ts a r _ h => by simp at h

theorem getLast_mem {α : Type} {l : List α} {a : α} (h : l.getLast? = some a) : a ∈ l := List.mem_of_getLast? h

theorem r_and {n : Nat} (R : Reads num lim n) : Post (pAnd lim (n + 1)) (fun e => kAnd num e → wAnd id lim e) := by
  simp only [pAnd]
  refine Post.optC.bind fun cs hcs => R.or_.need.bind fun l hl => ?_
  refine Post.bind (Post.many (Q := fun r => kAndTs num [r] → wAndTs id lim [r]) ?_ n) fun rs hrs => Post.ret ?_
  · refine Post.bind (Q := fun op => IsTok .and_ op ∨ IsTok .altAnd op)
      (Post.alt ((Post.textTok (k := .and_)).mono fun a h => .inl h) ((Post.textTok (k := .altAnd)).mono fun a h => .inr h)) fun op hop => ?_
    exact R.or_.need.bind fun t ht => Post.ret fun hk => ⟨hop, ht hk.1, trivial⟩
  · exact fun hk => ⟨hcs, hl hk.1, kw_ands hrs hk.2⟩

theorem r_or {n : Nat} (R : Reads num lim n) : Post (pOr lim (n + 1)) (fun e => kOr num e → wOr id lim e) := by
  simp only [pOr]
  refine Post.optC.bind fun cs hcs => R.cond.need.bind fun l hl => ?_
  refine Post.bind (Post.many (Q := fun r => kOrTs num [r] → wOrTs id lim [r]) ?_ n) fun rs hrs => Post.ret ?_
  · refine Post.bind (Q := fun op => IsTok .or_ op ∨ IsTok .altOr op)
      (Post.alt ((Post.textTok (k := .or_)).mono fun a h => .inl h) ((Post.textTok (k := .altOr)).mono fun a h => .inr h)) fun op hop => ?_
    exact R.cond.need.bind fun t ht => Post.ret fun hk => ⟨hop, ht hk.1, trivial⟩
  · exact fun hk => ⟨hcs, hl hk.1, kw_ors hrs hk.2⟩

theorem r_cond {n : Nat} (R : Reads num lim n) : Post (pCond lim (n + 1)) (fun e => kCond num e → wCond id lim e) := by
  simp only [pCond]
  refine Post.optC.bind fun cs hcs => Post.need (Post.alt ?_ ?_)
  · exact (Post.tok .not_).bind fun _ _ => R.cond.need.bind fun c hc => Post.ret fun hk => ⟨hcs, hc hk⟩
  · refine R.add.bind fun l hl => ?_
    refine Post.bind (Post.many (Q := fun r => kCmp num (some r) → wCmp id lim (some r)) ?_ n) fun rs hrs => Post.ret ?_
    · exact Post.cmpOp.bind fun op hop => R.add.need.bind fun r hr => Post.ret fun hk => ⟨hop, hr hk⟩
    · intro hk
      refine ⟨hcs, hl hk.1, ?_⟩
      have h2 := hk.2
      cases hr : rs.getLast? with
      | none => trivial
      | some r => rw [hr] at h2; exact hrs r (getLast_mem hr) h2

theorem r_add {n : Nat} (R : Reads num lim n) : Post (pAdd lim (n + 1)) (fun e => kAdd num e → wAdd id lim e) := by
  simp only [pAdd]
  refine Post.optC.bind fun cs hcs => R.mul.need.bind fun l hl => ?_
  refine Post.bind (Post.many (Q := fun r => kAddTs num [r] → wAddTs id lim [r]) ?_ n) fun rs hrs => Post.ret ?_
  · refine Post.bind (Q := fun op => op ∈ [bs "+", bs "-"])
      (Post.alt ((Post.lit _).mono fun a h => by rw [h]; decide) ((Post.lit _).mono fun a h => by rw [h]; decide))
      fun op hop => ?_
    exact R.mul.need.bind fun t ht => Post.ret fun hk => ⟨hop, ht hk.1, trivial⟩
  · exact fun hk => ⟨hcs, hl hk.1, kw_adds hrs hk.2⟩

theorem r_mul {n : Nat} (R : Reads num lim n) : Post (pMul lim (n + 1)) (fun e => kMul num e → wMul id lim e) := by
  simp only [pMul]
  refine Post.optC.bind fun cs hcs => R.member.need.bind fun l hl => ?_
  refine Post.bind (Post.many (Q := fun r => kMulTs num [r] → wMulTs id lim [r]) ?_ n) fun rs hrs => Post.ret ?_
  · refine Post.bind (Q := fun op => op ∈ [bs "*", bs "/"])
      (Post.alt ((Post.lit _).mono fun a h => by rw [h]; decide) ((Post.lit _).mono fun a h => by rw [h]; decide))
      fun op hop => ?_
    exact R.val.need.bind fun t ht => Post.ret fun hk => ⟨hop, ht hk.1, trivial⟩
  · exact fun hk => ⟨hcs, hl hk.1, kw_muls hrs hk.2⟩

/-- The parser of one index or field. -/
abbrev mterm (lim : Str → Option Int) (n : Nat) : P CMTerm := alt
        ((lit (bs "[")).bind fun _ => (many (pVal lim n) n).bind fun is =>
          (many (lit (bs ":")) n).bind fun cl => (many (pVal lim n) n).bind fun js =>
          (need (lit (bs "]"))).bind fun _ => ret
            (if cl.isEmpty then
              match is.getLast? with
              | some i => CMTerm.index i
              | none => CMTerm.empty
            else CMTerm.range is.getLast? js.getLast?))
        ((lit (bs ".")).bind fun _ => (need (tok .ident)).bind fun i => ret (CMTerm.field i))

theorem mterm_field {n : Nat} {ts r : List Tok} {i : Str} (h : mterm lim n ts = .ok (.field i) r) : ¬ NoField ts := by
  rcases alt_inv h with h | h
  · exfalso
    obtain ⟨_, _, _, h⟩ := bind_inv h
    obtain ⟨is, _, _, h⟩ := bind_inv h
    obtain ⟨cl, _, _, h⟩ := bind_inv h
    obtain ⟨js, _, _, h⟩ := bind_inv h
    obtain ⟨_, _, _, h⟩ := bind_inv h
    simp only [ret, Res.ok.injEq] at h
    have h := h.1
    split at h
    · split at h <;> simp at h
    · simp at h
  · obtain ⟨d, r1, h1, h2⟩ := bind_inv h
    obtain ⟨j, r2, h3, h4⟩ := bind_inv h2
    obtain ⟨t, rfl, ht, _⟩ := lit_inv h1
    have := tok_inv (need_inv h3)
    subst this
    intro hn
    exact hn t ⟨.ident, j⟩ r2 rfl ht rfl

theorem r_member {n : Nat} (R : Reads num lim n) :
    Post (pMember lim (n + 1)) (fun e => kMember num e → wMember id lim e) := by
  have hmt : Post (many (mterm lim n) n) (fun rs => ∀ r ∈ rs, kMTerms num [r] → wMTerms id lim [r]) := by
    refine Post.many (Post.alt ?_ ?_) n
    · refine (Post.lit _).bind fun _ _ => (Post.many R.val n).bind fun is his => ?_
      refine (Post.many (Post.lit _) n).bind fun cl _ => (Post.many R.val n).bind fun js hjs => ?_
      refine (Post.lit _).need.bind fun _ _ => Post.ret ?_
      have hlast : ∀ (l : List CVal), (∀ a ∈ l, kVal num a → wVal id lim a) →
          kOptVal num l.getLast? → wOptVal id lim l.getLast? := by
        intro l hl hk
        cases hx : l.getLast? with
        | none => trivial
        | some i => rw [hx] at hk; exact hl i (getLast_mem hx) hk
      split
      · split
        · rename_i i hi
          exact fun hk => ⟨his i (getLast_mem hi) hk.1, trivial⟩
        · exact fun hk => hk.elim
      · exact fun hk => ⟨hlast is his hk.1, hlast js hjs hk.2.1, trivial⟩
    · exact (Post.lit _).bind fun _ _ => (Post.textTok (k := .ident)).need.bind fun i hi => Post.ret fun _ => ⟨hi, trivial⟩
  intro ts e r hg h
  simp only [pMember] at h
  obtain ⟨cs, r1, h1, h⟩ := bind_inv h
  obtain ⟨hcs, hg⟩ := Post.optC _ _ _ hg h1
  obtain ⟨l, r2, h2, h⟩ := bind_inv h
  obtain ⟨hl, hg⟩ := R.val _ _ _ hg (need_inv h2)
  obtain ⟨rs, r3, h3, h⟩ := bind_inv h
  obtain ⟨hrs, hg⟩ := hmt _ _ _ hg h3
  simp only [ret, Res.ok.injEq] at h
  obtain ⟨rfl, rfl⟩ := h
  refine ⟨fun hk => ⟨hcs, hl hk.1, kw_mterms hrs hk.2, fun ho => ?_⟩, hg⟩
  have hn := val_noField (need_inv h2) ho
  cases rs with
  | nil => rfl
  | cons a as =>
    obtain ⟨r', hr'⟩ := many_first h3
    cases a with
    | field i => exact absurd hn (mterm_field hr')
    | _ => rfl

theorem r_comma {n : Nat} (R : Reads num lim n) : Post (pComma lim (n + 1)) (fun e => kComma num e → wComma id lim e) := by
  simp only [pComma]
  refine Post.optC.bind fun cs hcs => R.and_.need.bind fun l hl => ?_
  refine Post.bind (Post.many (Q := fun r => kCommaTs num [r] → wCommaTs id lim [r]) ?_ n) fun rs hrs => Post.ret ?_
  · refine Post.optC.bind fun c1 h1 => (Post.lit _).need.bind fun _ _ => Post.optC.bind fun c2 h2 => ?_
    refine (Post.many R.and_ n).bind fun ts hts => Post.ret ?_
    cases ht : ts.getLast? with
    | none => exact fun _ => ⟨h1, h2, trivial⟩
    | some t => exact fun hk => ⟨h1, h2, hts t (getLast_mem ht) hk.1, trivial⟩
  · exact fun hk => ⟨hcs, hl hk.1, kw_commas hrs hk.2⟩

theorem r_val {n : Nat} (R : Reads num lim n) : Post (pVal lim (n + 1)) (fun e => kVal num e → wVal id lim e) := by
  simp only [pVal]
  refine Post.optC.bind fun cs hcs => ?_
  refine Post.bind (Q := fun b => kValB num b → wValB id lim b) (Post.need ?_) fun b hb => Post.ret fun hk => ⟨hcs, hb hk⟩
  refine Post.alt (R.sym.map fun s hs hk => hs hk) (Post.alt ?_ (Post.alt ?_ (Post.alt ?_ (Post.alt ?_ ?_))))
  · exact (Post.lit _).bind fun _ _ => R.comma.need.bind fun c hc => (Post.lit _).need.bind fun _ _ =>
      Post.ret fun hk => hc hk
  · refine Post.map (Q := fun t => IsTok .mlString t ∨ IsTok .string t) (Post.alt ?_ ?_) fun a h _ => h
    · exact (Post.textTok (k := .mlString)).mono fun a h => .inl h
    · exact (Post.textTok (k := .string)).mono fun a h => .inr h
  · exact (Post.textTok (k := .number)).map fun a h _ => ⟨h, rfl⟩
  · exact (Post.textTok (k := .bool)).map fun a h _ => h
  · exact (Post.tok .null).map fun a h _ => trivial

/-- The parser of the arguments of a call. -/
theorem r_call {n : Nat} (R : Reads num lim n) :
    Post ((lit (bs "(")).bind fun _ => (opt (sepBy (pArg lim n) n)).bind fun as =>
        (need (lit (bs ")"))).bind fun _ => ret (as.getD [])) (fun as => ∀ a ∈ as, kArg num a → wArg id lim a) := by
  refine (Post.lit _).bind fun _ _ => (Post.opt (R.arg.sepBy n)).bind fun as has => ?_
  refine (Post.lit _).need.bind fun _ _ => Post.ret ?_
  cases as with
  | none => simp
  | some as => exact (has as rfl).2

theorem r_sym {n : Nat} (R : Reads num lim n) : Post (pSym lim (n + 1)) (fun e => kSym num e → wSym id lim e) := by
  simp only [pSym]
  refine Post.optC.bind fun cs hcs => ?_
  refine Post.bind (Post.need (Post.dotted (ks := [.symIdent, .ident]) ?_ n)) fun s hs => ?_
  · exact Post.alt ((Post.textTok (k := .symIdent)).mono fun a h => ⟨.symIdent, by decide, h⟩)
      ((Post.textTok (k := .ident)).mono fun a h => ⟨.ident, by decide, h⟩)
  · refine (Post.many (r_call R) n).bind fun calls hc => Post.ret fun hk => ⟨hcs, hs, ?_, ?_⟩
    · refine kw_args ?_ hk
      intro a ha
      obtain ⟨l, h1, h2⟩ := List.mem_flatten.1 ha
      exact hc l h1 a h2
    · intro h
      simp only [Bool.not_eq_false', List.isEmpty_iff] at h
      rw [h]; rfl

theorem r_arg {n : Nat} (R : Reads num lim n) : Post (pArg lim (n + 1)) (fun e => kArg num e → wArg id lim e) := by
  simp only [pArg]
  refine Post.optC.bind fun cs hcs => (Post.textTok (k := .ident)).need.bind fun i hi => (Post.lit _).need.bind fun _ _ => ?_
  refine Post.bind (Q := fun b => kArgV num b → wArgV id lim b) (Post.need ?_) fun b hb => Post.ret fun hk => ⟨hcs, hi, hb hk⟩
  refine Post.alt ?_ (Post.alt ?_ (R.and_.map fun e he hk => he hk))
  · exact (Post.lit _).bind fun _ _ => R.select.need.bind fun c hc => (Post.lit _).need.bind fun _ _ =>
      Post.ret fun hk => hc hk
  · refine (Post.lit _).bind fun _ _ => (Post.opt R.comma).bind fun c hc => (Post.lit _).need.bind fun _ _ => Post.ret ?_
    cases c with
    | none => exact fun _ => trivial
    | some c => exact fun hk => hc c rfl hk

theorem r_col {n : Nat} (R : Reads num lim n) : Post (pCol lim (n + 1)) (fun e => kCol num e → wCol id lim e) := by
  simp only [pCol]
  refine (Post.comments n).bind fun cs hcs => ?_
  refine Post.bind (Q := fun b => ∀ a, kColB num b a → wColB id lim b a) (Post.need ?_) fun b hb => ?_
  · refine Post.alt ((Post.lit _).map fun _ _ a hk => hk) (Post.alt ?_ (R.and_.map fun e he a hk => he hk))
    exact (Post.lit _).bind fun _ _ => R.select.need.bind fun c hc => (Post.lit _).need.bind fun _ _ =>
      Post.ret fun a hk => hc hk
  · refine (Post.opt ((Post.tok .as_).bind fun _ _ => (Post.textTok (k := .ident)).need)).bind fun a ha => Post.ret ?_
    refine fun hk => ⟨hcs, hb _ hk, ?_⟩
    cases a with
    | none => exact .inl rfl
    | some a => exact .inr (ha a rfl)

theorem r_plugin {n : Nat} (R : Reads num lim n) :
    Post (pPlugin lim (n + 1)) (fun e => kPlugin num e → wPlugin id lim e) := by
  simp only [pPlugin]
  refine Post.bind (Post.dotted (ks := [.ident]) ((Post.textTok (k := .ident)).mono fun a h => ⟨.ident, by decide, h⟩) n) fun s hs => ?_
  refine (Post.opt (r_call R)).bind fun args ha => Post.ret fun hk => ⟨hs, ?_, ?_⟩
  · cases args with
    | none => trivial
    | some as => exact kw_args (ha as rfl) hk
  · cases args with
    | none => exact fun _ => rfl
    | some as => simp

theorem col_star {n : Nat} {ts r : List Tok} {cs : List Comment} {a : Str} (hg : Good ts)
    (h : pCol lim n ts = .ok (.mk cs .star a) r) : ∃ t R, ts = t :: R ∧ t.text = bs "*" := by
  cases n with
  | zero => simp [pCol] at h
  | succ n =>
    simp only [pCol] at h
    obtain ⟨c, r1, h1, h⟩ := bind_inv h
    have hc := many_stop (m := n) (p := pComment) (ts := ts) (by
      cases n with
      | zero => simp [many] at h1
      | succ n => omega) (com_fl (good_next hg))
    rw [hc] at h1
    simp only [Res.ok.injEq] at h1
    rw [← h1.2] at h
    obtain ⟨b, r2, h2, h⟩ := bind_inv h
    obtain ⟨x, r3, h3, h⟩ := bind_inv h
    simp only [ret, Res.ok.injEq, CCol.mk.injEq] at h
    rw [h.1.2.1] at h2
    rcases alt_inv (need_inv h2) with h4 | h4
    · obtain ⟨y, r4, h5, h6⟩ := bind_inv h4
      obtain ⟨t, ht, hx, _⟩ := lit_inv h5
      exact ⟨t, r4, ht, hx⟩
    · exfalso
      rcases alt_inv h4 with h4 | h4
      · obtain ⟨_, _, _, h⟩ := bind_inv h4
        obtain ⟨_, _, _, h⟩ := bind_inv h
        obtain ⟨_, _, _, h⟩ := bind_inv h
        simp [ret] at h
      · obtain ⟨_, _, _, h⟩ := bind_inv h4
        simp [ret] at h

theorem sepBy_first {α : Type} {p : P α} {n : Nat} {ts R : List Tok} {a : α} {as : List α}
    (h : sepBy p n ts = .ok (a :: as) R) : ∃ r, p ts = .ok a r := by
  unfold sepBy at h
  obtain ⟨b, r1, h1, h⟩ := bind_inv h
  obtain ⟨bs, r2, h2, h⟩ := bind_inv h
  simp only [ret, Res.ok.injEq, List.cons.injEq] at h
  exact ⟨r1, by rw [h1, h.1.1]⟩

/-- The limits that are read can be printed and read again. -/
def LimOK (lim : Str → Option Int) : Prop :=
  ∀ t n, lim t = some n → IsTok .number (intText n) ∧ lim (intText n) = some n

/-- The clauses behind FROM. -/
abbrev restP (lim : Str → Option Int) (n : Nat) (cs : List Comment) (ex all : Bool) (cols : List CCol) : P CSelect :=
      (need (tok .from_)).bind fun _ => (need (pPlugin lim n)).bind fun from_ =>
      (opt ((tok .where_).bind fun _ => need (pComma lim n))).bind fun wh =>
      (opt ((tok .groupBy).bind fun _ => need (pComma lim n))).bind fun gb =>
      (opt ((tok .orderBy).bind fun _ => (need (tok .ident)).bind fun k =>
        (opt (tok .desc)).bind fun d => ret (k, d.isSome))).bind fun ob =>
      (opt ((tok .limit).bind fun _ => need (tok .number))).bind fun l =>
      match l with
      | none => ret (.mk cs ex all cols from_ wh gb ob none)
      | some t => match lim t with
        | none => fun ts => .err ts
        | some i => ret (.mk cs ex all cols from_ wh gb ob (some i))

theorem r_rest {n : Nat} (hlim : LimOK lim) (R : Reads num lim n) {cs : List Comment} {ex all : Bool} {cols : List CCol}
    (hcs : cs = []) (hc : kCols num cols → wCols id lim cols) (ha : all = false → cols ≠ [] ∧ startsStar cols = false) :
    Post (restP lim n cs ex all cols) (fun e => kSelect num e → wSelect id lim e) := by
  refine (Post.tok _).need.bind fun _ _ => R.plugin.need.bind fun from_ hf => ?_
  refine (Post.opt ((Post.tok _).bind fun _ _ => R.comma.need)).bind fun wh hwh => ?_
  refine (Post.opt ((Post.tok _).bind fun _ _ => R.comma.need)).bind fun gb hgb => ?_
  refine (Post.opt (Q := fun o => IsTok .ident o.1) ((Post.tok _).bind fun _ _ => (Post.textTok (k := .ident)).need.bind fun k hk =>
    (Post.opt (Post.tok .desc)).bind fun d _ => Post.ret hk)).bind fun ob hob => ?_
  refine (Post.opt ((Post.tok _).bind fun _ _ => (Post.textTok (k := .number)).need)).bind fun l hl => ?_
  have hoc : ∀ {o : Option CComma}, (∀ x, o = some x → kComma num x → wComma id lim x) →
      kOptComma num o → wOptComma id lim o := by
    intro o h hk
    cases o with
    | none => trivial
    | some c => exact h c rfl hk
  have hob' : ∀ k, ob.map Prod.fst = some k → IsTok .ident k := by
    intro k hk
    cases ob with
    | none => simp at hk
    | some o =>
      simp only [Option.map_some, Option.some.injEq] at hk
      rw [← hk]; exact hob o rfl
  have fin : ∀ li : Option Int, (∀ n, li = some n → IsTok .number (intText n) ∧ lim (intText n) = some n) →
      kSelect num (.mk cs ex all cols from_ wh gb ob li) → wSelect id lim (.mk cs ex all cols from_ wh gb ob li) := by
    intro li hli hk
    exact ⟨hcs, hc hk.1, ha, hf hk.2.1, hoc hwh hk.2.2.1, hoc hgb hk.2.2.2, hob', hli⟩
  cases l with
  | none => exact Post.ret (fin none (by simp))
  | some t =>
    dsimp only
    split
    · exact Post.err _
    · rename_i i hi
      exact Post.ret (fin (some i) (fun n hn => by simp at hn; rw [← hn]; exact hlim t i hi))

theorem r_select {n : Nat} (hlim : LimOK lim) (R : Reads num lim n) :
    Post (pSelect lim (n + 1)) (fun e => kSelect num e → wSelect id lim e) := by
  intro ts e r hg h
  simp only [pSelect] at h
  obtain ⟨cs, r1, h1, h⟩ := bind_inv h
  obtain ⟨hcs, hg⟩ := Post.comments n _ _ _ hg h1
  obtain ⟨ex, r2, h2, h⟩ := bind_inv h
  obtain ⟨_, hg⟩ := Post.many (Post.tok .explain) n _ _ _ hg h2
  obtain ⟨_, r3, h3, h⟩ := bind_inv h
  obtain ⟨_, hg⟩ := (Post.tok .select).need _ _ _ hg h3
  obtain ⟨all, r4, h4, h⟩ := bind_inv h
  have hg4 := (Post.opt (Q := fun _ => True) ((Post.lit _).bind fun _ _ => (Post.opt (Post.lit _)).mono fun _ _ => trivial) _ _ _ hg h4).2
  obtain ⟨cols, r5, h5, h⟩ := bind_inv h
  have hcols := Post.opt (R.col.sepBy n) _ _ _ hg4 h5
  split at h
  · simp at h
  · rename_i hne
    refine r_rest (cs := cs) (ex := !ex.isEmpty) (all := all.isSome) (cols := cols.getD []) hlim R hcs ?_ ?_ r5 e r hcols.2 h
    · cases cols with
      | none => exact fun _ => trivial
      | some c => exact kw_cols (hcols.1 c rfl).2
    · intro ha
      cases all with
      | some x => simp at ha
      | none =>
        cases cols with
        | none => simp at hne
        | some c =>
          refine ⟨(hcols.1 c rfl).1, ?_⟩
          rcases opt_inv h4 with ⟨x, hx, _⟩ | ⟨_, hr, hno⟩
          · simp at hx
          · subst hr
            rcases opt_inv h5 with ⟨x, hx, hs⟩ | ⟨hx, _⟩
            · simp only [Option.some.injEq] at hx
              subst hx
              cases c with
              | nil => rfl
              | cons a as =>
                obtain ⟨cc, b, al⟩ := a
                cases b with
                | star =>
                  exfalso
                  obtain ⟨r', hr'⟩ := sepBy_first hs
                  obtain ⟨t, R', rfl, ht⟩ := col_star hg hr'
                  have hl : lit (bs "*") (t :: R') = .ok (bs "*") R' := by simp only [lit, ht, if_true]
                  cases ho : opt (lit (bs ",")) R' with
                  | ok y q =>
                    exact hno y q (by rw [bind_ok hl]; exact ho)
                  | no =>
                    have : ∀ (p : P Str) (ts : List Tok), opt p ts ≠ .no := by
                      intro p ts h
                      unfold opt at h
                      split at h <;> try simp at h
                      split at h <;> simp at h
                    exact this _ _ ho
                  | err q =>
                    cases R' with
                    | nil => simp [opt, lit] at ho
                    | cons u R' =>
                      simp only [opt, lit] at ho
                      split at ho
                      · simp at ho
                      · simp at ho
                      · rename_i hx; split at hx <;> simp at hx
                      · simp at ho
                  | fuel =>
                    cases R' with
                    | nil => simp [opt, lit] at ho
                    | cons u R' =>
                      simp only [opt, lit] at ho
                      split at ho
                      · simp at ho
                      · simp at ho
                      · rename_i hx; split at hx <;> simp at hx
                      · rename_i hx; split at hx <;> simp at hx
                | expr e => rfl
                | select q => rfl
            · simp at hx

theorem reads (hlim : LimOK lim) : ∀ n, Reads num lim n
  | 0 => ⟨by simp only [pAnd]; exact post_fuel _, by simp only [pOr]; exact post_fuel _,
      by simp only [pCond]; exact post_fuel _, by simp only [pAdd]; exact post_fuel _,
      by simp only [pMul]; exact post_fuel _, by simp only [pMember]; exact post_fuel _,
      by simp only [pComma]; exact post_fuel _, by simp only [pVal]; exact post_fuel _,
      by simp only [pSym]; exact post_fuel _, by simp only [pArg]; exact post_fuel _,
      by simp only [pCol]; exact post_fuel _, by simp only [pPlugin]; exact post_fuel _,
      by simp only [pSelect]; exact post_fuel _⟩
  | n + 1 =>
    have R := reads hlim n
    ⟨r_and R, r_or R, r_cond R, r_add R, r_mul R, r_member R, r_comma R, r_val R, r_sym R, r_arg R, r_col R,
      r_plugin R, r_select hlim R⟩
end

end Vfilter.Fmt
