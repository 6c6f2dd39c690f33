import Verif.LexLemmas
/-!
# Printed queries as token lists

What `FormatToString` prints for a tree without comments, as a list of tokens and blanks, and the
trees for which reading it back gives the tree again.
-/

set_option linter.all false

namespace Vfilter.Fmt

/-- A token or a blank. -/
abbrev Item := Option Tok

/-- The text of a list of items. -/
def render : List Item → Str
  | [] => []
  | none :: is => 32 :: render is
  | some t :: is => t.text ++ render is

/-- The tokens of a list of items. -/
def toks (is : List Item) : List Tok := is.filterMap id

/-- An operator or punctuation. -/
def iop (s : Str) : Item := some ⟨.op, s⟩

/-- The token of an AND operator: the word or `&&`. -/
def andTok (op : Str) : Tok := if IsTok .altAnd op then ⟨.altAnd, op⟩ else ⟨.and_, op⟩

/-- The token of an OR operator: the word or `||`. -/
def orTok (op : Str) : Tok := if IsTok .altOr op then ⟨.altOr, op⟩ else ⟨.or_, op⟩

/-- The token of a comparison. -/
def cmpTok (op : Str) : Tok := if op = bs "IN" then ⟨.in_, op⟩ else ⟨.op, op⟩

/-- The tokens of a string literal. -/
def strTok (t : Str) : Tok := if IsTok .mlString t then ⟨.mlString, t⟩ else ⟨.string, t⟩

/-- The tokens of a possibly dotted name. -/
def nameItems (n : Str) : List Item := ((lex n).getD []).map some

/-- A symbol gets a blank in front of it behind a colon. -/
def colonGap : Option CVal → List Item
  | some (.mk _ (.sym _)) => [none]
  | _ => []

/-- The list ends with a bare comma. -/
def bareEnd : List CCommaT → Bool
  | [] => false
  | [.mk _ _ none] => true
  | _ :: rs => bareEnd rs

/-- The blank behind a bare comma at the end. -/
def commaGap : CComma → List Item
  | .mk _ _ rs => if bareEnd rs then [none] else []

/-- A blank at the end of a query. -/
def selectGap : CSelect → List Item
  | .mk _ _ _ _ _ wh gb ob lim =>
    match lim with
    | some _ => [none]
    | none => match ob with
      | some (_, desc) => if desc then [none] else []
      | none => match gb with
        | some c => commaGap c
        | none => match wh with
          | some c => commaGap c
          | none => []

mutual
def itAnd : CAnd → List Item
  | .mk _ l rs => itOr l ++ itAndTs rs
def itAndTs : List CAndT → List Item
  | [] => []
  | .mk op t :: rs => none :: none :: some (andTok op) :: none :: (itOr t ++ itAndTs rs)
def itOr : COr → List Item
  | .mk _ l rs => itCond l ++ itOrTs rs
def itOrTs : List COrT → List Item
  | [] => []
  | .mk op t :: rs => none :: some (orTok op) :: none :: (itCond t ++ itOrTs rs)
def itCond : CCond → List Item
  | .not _ c => some ⟨.not_, bs "NOT"⟩ :: none :: itCond c
  | .cmp _ l r => itAdd l ++ itCmp r
def itCmp : Option CCmpT → List Item
  | none => []
  | some (.mk op r) => none :: some (cmpTok op) :: none :: itAdd r
def itAdd : CAdd → List Item
  | .mk _ l rs => itMul l ++ itAddTs rs
def itAddTs : List CAddT → List Item
  | [] => []
  | .mk op t :: rs => none :: iop op :: none :: (itMul t ++ itAddTs rs)
def itMul : CMul → List Item
  | .mk _ l rs => itMember l ++ itMulTs rs
def itMulTs : List CMulT → List Item
  | [] => []
  | .mk op t :: rs => none :: iop op :: none :: (itVal t ++ itMulTs rs)
def itMember : CMember → List Item
  | .mk _ l rs => itVal l ++ itMTerms rs
def itMTerms : List CMTerm → List Item
  | [] => []
  | .range i j :: rs => iop (bs "[") :: (itOptVal i ++ iop (bs ":") :: (colonGap j ++ (itOptVal j ++
      iop (bs "]") :: itMTerms rs)))
  | .index i :: rs => iop (bs "[") :: (itVal i ++ iop (bs "]") :: itMTerms rs)
  | .field n :: rs => iop (bs ".") :: some ⟨.ident, n⟩ :: itMTerms rs
  | .empty :: rs => iop (bs ".") :: itMTerms rs
def itOptVal : Option CVal → List Item
  | none => []
  | some x => itVal x
def itComma : CComma → List Item
  | .mk _ l rs => itAnd l ++ itCommaTs rs
def itCommaTs : List CCommaT → List Item
  | [] => []
  | .mk _ _ none :: rs =>
    iop (bs ",") :: ((match rs with | [] => [] | _ :: _ => [none]) ++ itCommaTs rs)
  | .mk _ _ (some t) :: rs => iop (bs ",") :: none :: (itAnd t ++ itCommaTs rs)
def itVal : CVal → List Item
  | .mk _ b => itValB b
def itValB : CValB → List Item
  | .sym s => itSym s
  | .sub c => iop (bs "(") :: (itComma c ++ (commaGap c ++ [iop (bs ")")]))
  | .str t => [some (strTok t)]
  | .num t => [some ⟨.number, t⟩]
  | .bool t => [some ⟨.bool, t⟩]
  | .null => [some ⟨.null, bs "NULL"⟩]
def itSym : CSym → List Item
  | .mk _ n called ps =>
    nameItems n ++ if called then iop (bs "(") :: (itArgs ps ++ [iop (bs ")")]) else []
def itArgs : List CArg → List Item
  | [] => []
  | a :: as => itArg a ++ (match as with | [] => [] | _ :: _ => [iop (bs ","), none]) ++ itArgs as
def itArg : CArg → List Item
  | .mk _ n r => some ⟨.ident, n⟩ :: iop (bs "=") :: itArgV r
def itArgV : CArgV → List Item
  | .expr e => itAnd e
  | .select q => iop (bs "{") :: none :: (itSelect q ++ (selectGap q ++ [none, iop (bs "}")]))
  | .array c => iop (bs "[") :: (itComma c ++ (commaGap c ++ [iop (bs "]")]))
  | .empty => [iop (bs "["), iop (bs "]")]
def itSelect : CSelect → List Item
  | .mk _ ex all cols from_ wh gb ob lim =>
    (if ex then [some ⟨.explain, bs "EXPLAIN"⟩, none] else []) ++
    some ⟨.select, bs "SELECT"⟩ :: none ::
    ((if all then iop (bs "*") :: (if cols.isEmpty then [] else [iop (bs ","), none]) else []) ++
    (itCols cols ++ none :: some ⟨.from_, bs "FROM"⟩ :: none ::
    (itPlugin from_ ++
    (itClause ⟨.where_, bs "WHERE"⟩ wh ++
    (itClause ⟨.groupBy, bs "GROUP BY"⟩ gb ++
    ((match ob with
      | none => []
      | some (k, desc) => none :: some ⟨.orderBy, bs "ORDER BY"⟩ :: none :: some ⟨.ident, k⟩ ::
          (if desc then [none, some ⟨.desc, bs "DESC"⟩] else [])) ++
    (match lim with
      | none => []
      | some n => [none, some ⟨.limit, bs "LIMIT"⟩, none, some ⟨.number, intText n⟩])))))))
def itClause (t : Tok) : Option CComma → List Item
  | none => []
  | some c => none :: some t :: none :: itComma c
def itCols : List CCol → List Item
  | [] => []
  | c :: cs => itCol c ++ (match cs with | [] => [] | _ :: _ => [iop (bs ","), none]) ++ itCols cs
def itCol : CCol → List Item
  | .mk _ b a => itColB b ++
      if a = [] then [] else [none, some ⟨.as_, bs "AS"⟩, none, some ⟨.ident, a⟩]
def itColB : CColB → List Item
  | .star => [iop (bs "*")]
  | .expr e => itAnd e
  | .select q => iop (bs "{") :: none :: (itSelect q ++ (selectGap q ++ [none, iop (bs "}")]))
def itPlugin : CPlugin → List Item
  | .mk n call args =>
    nameItems n ++ if call then iop (bs "(") :: (itArgs args ++ [iop (bs ")")]) else []
end

/-- `a`, `a.b`, ...: the first part is a token of one of the kinds, the others are identifiers. -/
def DotName (ks : List TK) (n : Str) : Prop :=
  ∃ (a : Str) (as : List Str), (∃ k ∈ ks, IsTok k a) ∧ (∀ b ∈ as, IsTok .ident b) ∧ n = a ++ (as.map (46 :: ·)).flatten

/-- The comparison operators of the grammar. -/
def cmpOps : List Str :=
  [bs "<>", bs "<=", bs ">=", bs "=", bs "<", bs ">", bs "!=", bs "IN", bs "=~"]

/-- The symbol takes a following field for a part of its name. -/
def openSym : CVal → Bool
  | .mk _ (.sym (.mk _ _ called _)) => !called
  | _ => false

def startsField : List CMTerm → Bool
  | .field _ :: _ => true
  | _ => false

def startsStar : List CCol → Bool
  | .mk _ .star _ :: _ => true
  | _ => false

section
variable (num : Str → Str) (lim : Str → Option Int)

mutual
/-- Trees without comments whose tokens are what the lexer produces, without the few shapes that
are printed as something else. -/
def wAnd : CAnd → Prop
  | .mk cs l rs => cs = [] ∧ wOr l ∧ wAndTs rs
def wAndTs : List CAndT → Prop
  | [] => True
  | .mk op t :: rs => (IsTok .and_ op ∨ IsTok .altAnd op) ∧ wOr t ∧ wAndTs rs
def wOr : COr → Prop
  | .mk cs l rs => cs = [] ∧ wCond l ∧ wOrTs rs
def wOrTs : List COrT → Prop
  | [] => True
  | .mk op t :: rs => (IsTok .or_ op ∨ IsTok .altOr op) ∧ wCond t ∧ wOrTs rs
def wCond : CCond → Prop
  | .not cs c => cs = [] ∧ wCond c
  | .cmp cs l r => cs = [] ∧ wAdd l ∧ wCmp r
def wCmp : Option CCmpT → Prop
  | none => True
  | some (.mk op r) => op ∈ cmpOps ∧ wAdd r
def wAdd : CAdd → Prop
  | .mk cs l rs => cs = [] ∧ wMul l ∧ wAddTs rs
def wAddTs : List CAddT → Prop
  | [] => True
  | .mk op t :: rs => op ∈ [bs "+", bs "-"] ∧ wMul t ∧ wAddTs rs
def wMul : CMul → Prop
  | .mk cs l rs => cs = [] ∧ wMember l ∧ wMulTs rs
def wMulTs : List CMulT → Prop
  | [] => True
  | .mk op t :: rs => op ∈ [bs "*", bs "/"] ∧ wVal t ∧ wMulTs rs
def wMember : CMember → Prop
  | .mk cs l rs => cs = [] ∧ wVal l ∧ wMTerms rs ∧ (openSym l = true → startsField rs = false)
def wMTerms : List CMTerm → Prop
  | [] => True
  | .range i j :: rs => wOptVal i ∧ wOptVal j ∧ wMTerms rs
  | .index i :: rs => wVal i ∧ wMTerms rs
  | .field n :: rs => IsTok .ident n ∧ wMTerms rs
  | .empty :: rs => False
def wOptVal : Option CVal → Prop
  | none => True
  | some x => wVal x
def wComma : CComma → Prop
  | .mk cs l rs => cs = [] ∧ wAnd l ∧ wCommaTs rs
def wCommaTs : List CCommaT → Prop
  | [] => True
  | .mk c1 c2 none :: rs => c1 = [] ∧ c2 = [] ∧ wCommaTs rs
  | .mk c1 c2 (some t) :: rs => c1 = [] ∧ c2 = [] ∧ wAnd t ∧ wCommaTs rs
def wVal : CVal → Prop
  | .mk cs b => cs = [] ∧ wValB b
def wValB : CValB → Prop
  | .sym s => wSym s
  | .sub c => wComma c
  | .str t => IsTok .mlString t ∨ IsTok .string t
  | .num t => IsTok .number t ∧ num t = t
  | .bool t => IsTok .bool t
  | .null => True
def wSym : CSym → Prop
  | .mk cs n called ps => cs = [] ∧ DotName [.symIdent, .ident] n ∧ wArgs ps ∧
      (called = false → ps = [])
def wArgs : List CArg → Prop
  | [] => True
  | a :: as => wArg a ∧ wArgs as
def wArg : CArg → Prop
  | .mk cs n r => cs = [] ∧ IsTok .ident n ∧ wArgV r
def wArgV : CArgV → Prop
  | .expr e => wAnd e
  | .select q => wSelect q
  | .array c => wComma c
  | .empty => True
def wSelect : CSelect → Prop
  | .mk cs ex all cols from_ wh gb ob l => cs = [] ∧ wCols cols ∧
      (all = false → cols ≠ [] ∧ startsStar cols = false) ∧ wPlugin from_ ∧ wOptComma wh ∧
      wOptComma gb ∧ (∀ k, (ob.map Prod.fst) = some k → IsTok .ident k) ∧
      (∀ n, l = some n → IsTok .number (intText n) ∧ lim (intText n) = some n)
def wOptComma : Option CComma → Prop
  | none => True
  | some c => wComma c
def wCols : List CCol → Prop
  | [] => True
  | c :: cs => wCol c ∧ wCols cs
def wCol : CCol → Prop
  | .mk cs b a => cs = [] ∧ wColB b a ∧ (a = [] ∨ IsTok .ident a)
def wColB : CColB → Str → Prop
  | .star, a => a = []
  | .expr e, _ => wAnd e
  | .select q, _ => wSelect q
def wPlugin : CPlugin → Prop
  | .mk n call args => DotName [.ident] n ∧ wArgs args ∧ (call = false → args = [])
end
end

/-! ## Tokens: first and last character -/

theorem word_blank : ∀ c : UInt8, isWord c = true → isBlank c = false :=
  forall_byte (by decide +kernel)

/-- The fragment ends a value: no blank at its end, and a blank is put behind it by a line
break. -/
def Solid (f : Str) : Prop :=
  (∃ c, f.getLast? = some c ∧ isBlank c = false) ∧ tightAfter.contains f = false

theorem getLast_of {s : Str} {c : UInt8} (t : Str) (h : s = t ++ [c]) : s.getLast? = some c := by
  rw [h]; simp

theorem last_mem {s : Str} {c : UInt8} (h : s.getLast? = some c) : c ∈ s := List.mem_of_getLast? h

theorem quotedRest_last {q : UInt8} : ∀ n (t m x : Str), t.length ≤ n →
    quotedRest q t = some (m, x) → m.getLast? = some q
  | _, [], m, x, _, h => by simp [quotedRest] at h
  | 0, _ :: _, _, _, hn, _ => by simp at hn
  | n + 1, c :: cs, m, x, hn, h => by
    rw [quotedRest.eq_def] at h
    simp only at h
    split at h
    · rename_i hc
      simp only [Option.some.injEq, Prod.mk.injEq] at h
      rw [← h.1, hc]; rfl
    · split at h
      · cases cs with
        | nil => simp at h
        | cons d ds =>
          simp only [Option.map_eq_some_iff, Prod.mk.injEq] at h
          obtain ⟨⟨a, b⟩, h1, h2, h3⟩ := h
          have := quotedRest_last n ds a b (by simp at hn; omega) h1
          rw [← h2]
          obtain ⟨y, hy⟩ := List.getLast?_eq_some_iff.1 this
          exact getLast_of (c :: d :: y) (by simp only [hy, List.cons_append])
      · simp only [Option.map_eq_some_iff, Prod.mk.injEq] at h
        obtain ⟨⟨a, b⟩, h1, h2, h3⟩ := h
        have := quotedRest_last n cs a b (by simp at hn; omega) h1
        rw [← h2]
        obtain ⟨y, hy⟩ := List.getLast?_eq_some_iff.1 this
        exact getLast_of (c :: y) (by simp only [hy, List.cons_append])

theorem solid_of {k : TK} {t : Str} {c : UInt8} (h : IsTok k t) (hl : t.getLast? = some c)
    (hc : isBlank c = false) (hk : k ≠ .space := by decide) (hk2 : k ≠ .op := by decide) : Solid t := by
  refine ⟨⟨c, hl, hc⟩, ?_⟩
  rw [Bool.eq_false_iff]
  intro hm
  rw [List.contains_iff_mem] at hm
  simp only [tightAfter, List.mem_cons, List.not_mem_nil, or_false] at hm
  unfold IsTok at h
  rcases hm with rfl | rfl | rfl | rfl | rfl | rfl
  · exact hk (by
      have : firstRule rules (bs " ") = some (.space, bs " ", []) := by decide
      rw [this] at h; simp at h; exact h.symm)
  · exact hk2 (by
      have : firstRule rules (bs "(") = some (.op, bs "(", []) := by decide
      rw [this] at h; simp at h; exact h.symm)
  · exact hk2 (by
      have : firstRule rules (bs "{") = some (.op, bs "{", []) := by decide
      rw [this] at h; simp at h; exact h.symm)
  · exact hk2 (by
      have : firstRule rules (bs "=") = some (.op, bs "=", []) := by decide
      rw [this] at h; simp at h; exact h.symm)
  · exact hk2 (by
      have : firstRule rules (bs "[") = some (.op, bs "[", []) := by decide
      rw [this] at h; simp at h; exact h.symm)
  · exact hk2 (by
      have : firstRule rules (bs "=[") = some (.op, bs "=", bs "[") := by decide
      rw [this] at h; simp at h; exact h.1.symm)

theorem word_last {c : UInt8} {s : Str} (hc : isLetter c = true) (hs : ∀ d ∈ s, isWord d = true) :
    ∃ d, (c :: s).getLast? = some d ∧ isBlank d = false := by
  cases h : (c :: s).getLast? with
  | none => simp at h
  | some d =>
    refine ⟨d, rfl, word_blank d ?_⟩
    have := last_mem h
    simp only [List.mem_cons] at this
    rcases this with rfl | hd
    · simp [isWord, hc]
    · exact hs d hd

theorem ident_last {t : Str} (h : identifier t = some (t, [])) :
    ∃ d, t.getLast? = some d ∧ isBlank d = false := by
  rcases ident_shape h with ⟨c, s, rfl, hc, hs⟩ | ⟨m, rfl, hm, hq⟩
  · exact word_last hc hs
  · exact ⟨96, getLast_of (96 :: m) rfl, rfl⟩

theorem solid_ident {t : Str} (h : IsTok .ident t) : Solid t := by
  obtain ⟨d, h1, h2⟩ := ident_last (ident_rule h)
  exact solid_of h h1 h2

theorem solid_sym {t : Str} (h : IsTok .symIdent t) : Solid t := by
  obtain ⟨u, rfl, hu⟩ := sym_rule h
  obtain ⟨d, h1, h2⟩ := ident_last hu
  obtain ⟨y, hy⟩ := List.getLast?_eq_some_iff.1 h1
  exact solid_of h (getLast_of (45 :: y) (by simp [hy])) h2

theorem solid_kw {k : TK} (hk : k ∈ [TK.bool, .null, .and_, .or_, .not_]) {t : Str} (h : IsTok k t) :
    Solid t := by
  obtain ⟨c, s, rfl, hc, hs⟩ := caps_of_mem hk h
  obtain ⟨d, h1, h2⟩ := word_last hc hs
  refine solid_of h h1 h2 ?_ ?_ <;>
  · simp only [List.mem_cons, List.not_mem_nil, or_false] at hk
    rcases hk with rfl | rfl | rfl | rfl | rfl <;> decide

theorem solid_num {t : Str} (h : IsTok .number t) : Solid t := by
  have hn := num_rule h
  cases hl : t.getLast? with
  | none =>
    rw [List.getLast?_eq_none_iff] at hl
    subst hl
    exact absurd hn (by decide)
  | some c =>
    refine solid_of h hl ?_
    rw [Bool.eq_false_iff]
    intro hb
    obtain ⟨y, hy⟩ := List.getLast?_eq_some_iff.1 hl
    have := app_number (r := [c]) (by simp [folE, hb, noB]) y
    unfold App at this
    rw [← hy, hn] at this
    cases hx : number y with
    | none => rw [hx] at this; simp at this
    | some p => rw [hx] at this; simp at this

theorem solid_str {t : Str} (h : IsTok .string t) : Solid t := by
  have hq := str_rule h
  cases t with
  | nil => simp [quoted] at hq
  | cons c s =>
    simp only [quoted] at hq
    split at hq
    · rename_i hc
      simp only [Option.map_eq_some_iff, Prod.mk.injEq, List.cons.injEq, true_and] at hq
      obtain ⟨⟨a, b⟩, h1, h2, h3⟩ := hq
      have hl := quotedRest_last _ s a b (Nat.le_refl _) h1
      obtain ⟨y, hy⟩ := List.getLast?_eq_some_iff.1 hl
      simp only at h2
      refine solid_of h (getLast_of (c :: y) (by rw [← h2, hy]; rfl)) ?_
      rcases hc with rfl | rfl <;> rfl
    · simp at hq

theorem solid_ml {t : Str} (h : IsTok .mlString t) : Solid t := by
  obtain ⟨u, rfl, hu⟩ := ml_rule h
  obtain ⟨y, hy⟩ := upTo_ends _ _ _ hu
  exact solid_of h (c := 39) (getLast_of (39 :: 39 :: 39 :: y ++ [39, 39]) (by
    rw [hy, show bs "'''" = [39, 39, 39] from rfl]; simp)) rfl

end Vfilter.Fmt
