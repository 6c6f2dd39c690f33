import Verif.Parse
/-!
# The parsers look at the kind of a keyword, not at its letters

`recase f` changes the letters of keyword tokens: `f` is applied to AND, OR, TRUE and FALSE, whose
text is kept in the syntax tree, all other keywords become upper case.  Every grammar function
gives on the changed tokens what it gives on the original ones, with `f` applied to the texts in
the tree.
-/

set_option linter.all false

namespace Vfilter.Fmt

/-- Keywords (and `&&`, `||`) whose text is kept in the tree. -/
def kept : TK → Bool
  | .and_ | .or_ | .altAnd | .altOr | .bool => true
  | _ => false

/-- Keywords of which only the kind is used.  The lexer gives IN and DESC in upper case already. -/
def bare : TK → Bool
  | .explain | .select | .where_ | .from_ | .not_ | .as_ | .limit | .null | .groupBy | .orderBy | .let_ => true
  | _ => false

section
variable (f : Str → Str)

/-- Other letters for the text of a token. -/
def recase (k : TK) (s : Str) : Str :=
  if kept k = true then f s else if bare k = true then s.map upper else s

/-- Other letters for a token. -/
def recaseT (t : Tok) : Tok := ⟨t.kind, recase f t.kind t.text⟩

/-! ## Trees -/

mutual
/-- The tree with `f` applied to the words AND, OR, TRUE and FALSE as they were written. -/
def rcAnd : CAnd → CAnd
  | .mk cs l rs => .mk cs (rcOr l) (rcAndTs rs)
def rcAndTs : List CAndT → List CAndT
  | [] => []
  | .mk op t :: rs => .mk (f op) (rcOr t) :: rcAndTs rs
def rcOr : COr → COr
  | .mk cs l rs => .mk cs (rcCond l) (rcOrTs rs)
def rcOrTs : List COrT → List COrT
  | [] => []
  | .mk op t :: rs => .mk (f op) (rcCond t) :: rcOrTs rs
def rcCond : CCond → CCond
  | .not cs c => .not cs (rcCond c)
  | .cmp cs l r => .cmp cs (rcAdd l) (rcCmp r)
def rcCmp : Option CCmpT → Option CCmpT
  | none => none
  | some (.mk op r) => some (.mk op (rcAdd r))
def rcAdd : CAdd → CAdd
  | .mk cs l rs => .mk cs (rcMul l) (rcAddTs rs)
def rcAddTs : List CAddT → List CAddT
  | [] => []
  | .mk op t :: rs => .mk op (rcMul t) :: rcAddTs rs
def rcMul : CMul → CMul
  | .mk cs l rs => .mk cs (rcMember l) (rcMulTs rs)
def rcMulTs : List CMulT → List CMulT
  | [] => []
  | .mk op t :: rs => .mk op (rcVal t) :: rcMulTs rs
def rcMember : CMember → CMember
  | .mk cs l rs => .mk cs (rcVal l) (rcMTerms rs)
def rcMTerms : List CMTerm → List CMTerm
  | [] => []
  | .range i j :: rs => .range (rcOptVal i) (rcOptVal j) :: rcMTerms rs
  | .index i :: rs => .index (rcVal i) :: rcMTerms rs
  | .field n :: rs => .field n :: rcMTerms rs
  | .empty :: rs => .empty :: rcMTerms rs
def rcOptVal : Option CVal → Option CVal
  | none => none
  | some x => some (rcVal x)
def rcComma : CComma → CComma
  | .mk cs l rs => .mk cs (rcAnd l) (rcCommaTs rs)
def rcCommaTs : List CCommaT → List CCommaT
  | [] => []
  | .mk c1 c2 none :: rs => .mk c1 c2 none :: rcCommaTs rs
  | .mk c1 c2 (some t) :: rs => .mk c1 c2 (some (rcAnd t)) :: rcCommaTs rs
def rcVal : CVal → CVal
  | .mk cs b => .mk cs (rcValB b)
def rcValB : CValB → CValB
  | .sym s => .sym (rcSym s)
  | .sub c => .sub (rcComma c)
  | .str t => .str t
  | .num t => .num t
  | .bool t => .bool (f t)
  | .null => .null
def rcSym : CSym → CSym
  | .mk cs n called ps => .mk cs n called (rcArgs ps)
def rcArgs : List CArg → List CArg
  | [] => []
  | a :: as => rcArg a :: rcArgs as
def rcArg : CArg → CArg
  | .mk cs n r => .mk cs n (rcArgV r)
def rcArgV : CArgV → CArgV
  | .expr e => .expr (rcAnd e)
  | .select q => .select (rcSelect q)
  | .array c => .array (rcComma c)
  | .empty => .empty
def rcSelect : CSelect → CSelect
  | .mk cs ex all cols from_ wh gb ob l =>
      .mk cs ex all (rcCols cols) (rcPlugin from_) (rcOptComma wh) (rcOptComma gb) ob l
def rcOptComma : Option CComma → Option CComma
  | none => none
  | some c => some (rcComma c)
def rcCols : List CCol → List CCol
  | [] => []
  | c :: cs => rcCol c :: rcCols cs
def rcCol : CCol → CCol
  | .mk cs b a => .mk cs (rcColB b) a
def rcColB : CColB → CColB
  | .star => .star
  | .expr e => .expr (rcAnd e)
  | .select q => .select (rcSelect q)
def rcPlugin : CPlugin → CPlugin
  | .mk n call args => .mk n call (rcArgs args)
end

def rcAndT : CAndT → CAndT
  | .mk op t => .mk (f op) (rcOr f t)
def rcOrT : COrT → COrT
  | .mk op t => .mk (f op) (rcCond f t)
def rcCmpT : CCmpT → CCmpT
  | .mk op t => .mk op (rcAdd f t)
def rcAddT : CAddT → CAddT
  | .mk op t => .mk op (rcMul f t)
def rcMulT : CMulT → CMulT
  | .mk op t => .mk op (rcVal f t)
def rcMTerm : CMTerm → CMTerm
  | .range i j => .range (rcOptVal f i) (rcOptVal f j)
  | .index i => .index (rcVal f i)
  | .field n => .field n
  | .empty => .empty
def rcCommaT : CCommaT → CCommaT
  | .mk c1 c2 t => .mk c1 c2 (t.map (rcAnd f))

/-- The same for LET parameters. -/
def rcParam : CLetParam → CLetParam
  | .name n => .name n
  | .dflt a => .dflt (rcArg f a)

/-- The same for the body of a LET. -/
def rcBody : CLetBody → CLetBody
  | .expr e => .expr (rcAnd f e)
  | .select q => .select (rcSelect f q)

/-- The same for statements. -/
def rcStmt : CStmt → CStmt
  | .let_ cs n called ps op b => .let_ cs n called (ps.map (rcParam f)) op (rcBody f b)
  | .query cs q => .query cs (rcSelect f q)

theorem rcAndTs_eq : ∀ l, rcAndTs f l = l.map (rcAndT f)
  | [] => rfl
  | .mk op t :: l => by simp [rcAndTs, rcAndT, rcAndTs_eq l]
theorem rcOrTs_eq : ∀ l, rcOrTs f l = l.map (rcOrT f)
  | [] => rfl
  | .mk op t :: l => by simp [rcOrTs, rcOrT, rcOrTs_eq l]
theorem rcAddTs_eq : ∀ l, rcAddTs f l = l.map (rcAddT f)
  | [] => rfl
  | .mk op t :: l => by simp [rcAddTs, rcAddT, rcAddTs_eq l]
theorem rcMulTs_eq : ∀ l, rcMulTs f l = l.map (rcMulT f)
  | [] => rfl
  | .mk op t :: l => by simp [rcMulTs, rcMulT, rcMulTs_eq l]
theorem rcMTerms_eq : ∀ l, rcMTerms f l = l.map (rcMTerm f)
  | [] => rfl
  | .range i j :: l => by simp [rcMTerms, rcMTerm, rcMTerms_eq l]
  | .index i :: l => by simp [rcMTerms, rcMTerm, rcMTerms_eq l]
  | .field i :: l => by simp [rcMTerms, rcMTerm, rcMTerms_eq l]
  | .empty :: l => by simp [rcMTerms, rcMTerm, rcMTerms_eq l]
theorem rcCommaTs_eq : ∀ l, rcCommaTs f l = l.map (rcCommaT f)
  | [] => rfl
  | .mk c1 c2 none :: l => by simp [rcCommaTs, rcCommaT, rcCommaTs_eq l]
  | .mk c1 c2 (some t) :: l => by simp [rcCommaTs, rcCommaT, rcCommaTs_eq l]
theorem rcArgs_eq : ∀ l, rcArgs f l = l.map (rcArg f)
  | [] => rfl
  | a :: l => by simp [rcArgs, rcArgs_eq l]
theorem rcCols_eq : ∀ l, rcCols f l = l.map (rcCol f)
  | [] => rfl
  | a :: l => by simp [rcCols, rcCols_eq l]
theorem rcCmp_eq (c : Option CCmpT) : rcCmp f c = c.map (rcCmpT f) := by
  rcases c with _ | ⟨_, _⟩ <;> rfl
theorem rcOptVal_eq (c : Option CVal) : rcOptVal f c = c.map (rcVal f) := by cases c <;> rfl
theorem rcOptComma_eq (c : Option CComma) : rcOptComma f c = c.map (rcComma f) := by cases c <;> rfl

end

/-! ## Combinators -/

/-- A result with its value and its tokens changed. -/
def Res.mapT {α β : Type} (c : Tok → Tok) (g : α → β) : Res α → Res β
  | .no => .no
  | .ok a r => .ok (g a) (r.map c)
  | .err r => .err (r.map c)
  | .fuel => .fuel

/-- `q` does on changed tokens what `p` does on the original ones. -/
def Natl {α β : Type} (c : Tok → Tok) (g : α → β) (p : P α) (q : P β) : Prop :=
  ∀ ts, q (ts.map c) = (p ts).mapT c g

section
variable {α β γ δ : Type} {c : Tok → Tok}

theorem tooFar_map (ts r : List Tok) : tooFar (ts.map c) (r.map c) = tooFar ts r := by simp [tooFar]

theorem Natl.ret {g : α → β} {a : α} {b : β} (h : b = g a) : Natl c g (Fmt.ret a) (Fmt.ret b) := fun ts => by
  rw [h]; rfl
theorem Natl.fail {g : α → β} : Natl c g (fun ts => .err ts) (fun ts => .err ts) := fun ts => rfl
theorem Natl.fuel {g : α → β} : Natl c g (fun _ => .fuel) (fun _ => .fuel) := fun ts => rfl

theorem Natl.bind {g : α → β} {h : γ → δ} {p : P α} {q : P β} {k : α → P γ} {l : β → P δ}
    (hp : Natl c g p q) (hk : ∀ a, Natl c h (k a) (l (g a))) : Natl c h (p.bind k) (q.bind l) := fun ts => by
  simp only [P.bind, hp ts]
  cases p ts with
  | ok a r => exact hk a r
  | _ => rfl

theorem Natl.need {g : α → β} {p : P α} {q : P β} (hp : Natl c g p q) : Natl c g (Fmt.need p) (Fmt.need q) := fun ts => by
  simp only [Fmt.need, hp ts]
  cases p ts <;> rfl

theorem Natl.map {g : α → β} {h : γ → δ} {p : P α} {q : P β} {k : α → γ} {l : β → δ}
    (hp : Natl c g p q) (hk : ∀ a, l (g a) = h (k a)) : Natl c h (p.map k) (q.map l) :=
  hp.bind fun a => Natl.ret (hk a)

theorem Natl.fin {g : α → β} {h : γ → δ} {p : P α} {q : P β} {k : α → γ} {l : β → δ}
    (hp : Natl c g p q) (hk : ∀ a, l (g a) = h (k a)) :
    Natl c h (p.bind fun a => Fmt.ret (k a)) (q.bind fun a => Fmt.ret (l a)) :=
  hp.bind fun a => Natl.ret (hk a)

theorem Natl.opt {g : α → β} {p : P α} {q : P β} (hp : Natl c g p q) :
    Natl c (Option.map g) (Fmt.opt p) (Fmt.opt q) := fun ts => by
  simp only [Fmt.opt, hp ts]
  cases p ts with
  | err r => simp only [Res.mapT, tooFar_map]; split <;> rfl
  | _ => rfl

theorem Natl.many {g : α → β} {p : P α} {q : P β} (hp : Natl c g p q) :
    ∀ n, Natl c (List.map g) (Fmt.many p n) (Fmt.many q n)
  | 0 => Natl.fuel
  | n + 1 => fun ts => by
    simp only [Fmt.many, hp ts]
    cases p ts with
    | err r => simp only [Res.mapT, tooFar_map]; split <;> rfl
    | ok a r =>
      exact (Natl.many hp n).bind (k := fun as => Fmt.ret (a :: as)) (l := fun as => Fmt.ret (g a :: as))
        (fun as => Natl.ret (by rfl)) r
    | _ => rfl

theorem Natl.alt {g : α → β} {p p' : P α} {q q' : P β} (hp : Natl c g p q) (hp' : Natl c g p' q') :
    Natl c g (Fmt.alt p p') (Fmt.alt q q') := fun ts => by
  simp only [Fmt.alt, hp ts]
  cases p ts with
  | err r =>
    simp only [Res.mapT, tooFar_map]
    split
    · rfl
    · rw [hp' ts]
      cases p' ts with
      | err r2 => simp only [Res.mapT, tooFar_map]; split <;> rfl
      | _ => rfl
  | no => exact hp' ts
  | _ => rfl

theorem Natl.sepBy {g : α → β} {p : P α} {q : P β} (hp : Natl c g p q)
    (hc : Natl c id (Fmt.lit (bs ",")) (Fmt.lit (bs ","))) (n : Nat) :
    Natl c (List.map g) (Fmt.sepBy p n) (Fmt.sepBy q n) :=
  hp.bind fun a => ((hc.bind fun _ => hp.need).many n).bind fun as => Natl.ret (by rfl)

end

/-! ## Tokens -/

/-- `f` leaves texts without letters alone, and gives no others such a text. -/
def KeepsSigns (f : Str → Str) : Prop := ∀ s t : Str, (∀ c ∈ s, isLetter c = false) → (f t = s ↔ t = s)

section
variable {f : Str → Str}

theorem natl_tok (k : TK) : Natl (recaseT f) (recase f k) (tok k) (tok k)
  | [] => rfl
  | t :: ts => by
    simp only [List.map_cons, tok]
    show (if t.kind = k then _ else _) = _
    split
    · next h => rw [← h]; rfl
    · rfl

theorem natl_tok_id {k : TK} (h : kept k = false) (h' : bare k = false) : Natl (recaseT f) id (tok k) (tok k) := by
  have := natl_tok (f := f) k
  have e : recase f k = id := by funext s; simp [recase, h, h']
  rwa [e] at this

theorem natl_tok_kept {k : TK} (h : kept k = true) : Natl (recaseT f) f (tok k) (tok k) := by
  have := natl_tok (f := f) k
  have e : recase f k = f := by funext s; simp [recase, h]
  rwa [e] at this

theorem keeps_id : KeepsSigns id := fun _ _ _ => Iff.rfl

theorem upper_inv {c d : UInt8} (h : upper c = d) (hd : isLetter d = false) : c = d := by
  subst h
  revert hd
  rcases c with ⟨⟨c⟩⟩
  revert c
  decide +kernel

theorem keeps_upper : KeepsSigns (List.map upper) := by
  intro s t h
  constructor
  · intro e
    subst e
    have : ∀ c ∈ t, upper c = c := fun c hc => (upper_inv rfl (h _ (List.mem_map_of_mem hc))).symm
    exact (List.map_congr_left this |>.trans (List.map_id t)).symm
  · rintro rfl
    have : ∀ c ∈ t, upper c = c := by
      intro c hc
      have := h c hc
      revert this
      clear hc
      rcases c with ⟨⟨c⟩⟩
      revert c
      decide +kernel
    exact List.map_congr_left this |>.trans (List.map_id t)

variable (hf : KeepsSigns f)
include hf

theorem recase_signs (k : TK) {s t : Str} (h : ∀ c ∈ s, isLetter c = false) : recase f k t = s ↔ t = s := by
  unfold recase
  split
  · exact hf s t h
  · split
    · exact keeps_upper s t h
    · exact Iff.rfl

theorem natl_lit {s : Str} (h : ∀ c ∈ s, isLetter c = false) : Natl (recaseT f) id (lit s) (lit s)
  | [] => rfl
  | t :: ts => by
    simp only [List.map_cons, lit]
    show (if recase f t.kind t.text = s then Res.ok (recase f t.kind t.text) _ else _) = _
    by_cases e : t.text = s
    · rw [if_pos e, if_pos ((recase_signs hf _ h).2 e), (recase_signs hf _ h).2 e, e]; rfl
    · rw [if_neg e, if_neg (fun h' => e ((recase_signs hf _ h).1 h'))]; rfl

theorem natl_lits : ∀ {ss : List Str}, (∀ s ∈ ss, ∀ c ∈ s, isLetter c = false) →
    Natl (recaseT f) id (lits ss) (lits ss)
  | [], _ => fun _ => rfl
  | s :: ss, h => Natl.alt (natl_lit hf (h s (by simp))) (natl_lits fun s hs => h s (by simp [hs]))

omit hf in
theorem natl_comment : Natl (recaseT f) id pComment pComment :=
  Natl.alt ((natl_tok_id rfl rfl).map fun _ => (by rfl))
    (Natl.alt ((natl_tok_id rfl rfl).map fun _ => (by rfl)) ((natl_tok_id rfl rfl).map fun _ => (by rfl)))

omit hf in
theorem natl_comments (n : Nat) : Natl (recaseT f) id (many pComment n) (many pComment n) := by
  have := (natl_comment (f := f)).many n
  rwa [List.map_id_fun] at this

omit hf in
theorem natl_optC : Natl (recaseT f) id optC optC :=
  (natl_comment (f := f)).opt.map fun a => by cases a <;> rfl

theorem natl_dotted {p : P Str} (hp : Natl (recaseT f) id p p) (n : Nat) :
    Natl (recaseT f) id (dotted p n) (dotted p n) := by
  refine hp.bind fun a => ?_
  have h : Natl (recaseT f) id ((lit (bs ".")).bind fun d => (need (tok .ident)).bind fun i => ret (d ++ i))
      ((lit (bs ".")).bind fun d => (need (tok .ident)).bind fun i => ret (d ++ i)) :=
    (natl_lit hf (by decide)).bind fun d => (natl_tok_id rfl rfl).need.bind fun i => Natl.ret (by rfl)
  refine (h.many n).bind fun as => Natl.ret ?_
  rw [List.map_id]; rfl

theorem natl_cmpOp : Natl (recaseT f) id cmpOp cmpOp :=
  Natl.alt (natl_lits hf (by decide)) (Natl.alt (natl_tok_id rfl rfl) (natl_lit hf (by decide)))

/-! ## The grammar -/

variable {lim : Str → Option Int}

/-- Every grammar function at a level. -/
structure Nats (f : Str → Str) (lim : Str → Option Int) (n : Nat) : Prop where
  and_ : Natl (recaseT f) (rcAnd f) (pAnd lim n) (pAnd lim n)
  or_ : Natl (recaseT f) (rcOr f) (pOr lim n) (pOr lim n)
  cond : Natl (recaseT f) (rcCond f) (pCond lim n) (pCond lim n)
  add : Natl (recaseT f) (rcAdd f) (pAdd lim n) (pAdd lim n)
  mul : Natl (recaseT f) (rcMul f) (pMul lim n) (pMul lim n)
  member : Natl (recaseT f) (rcMember f) (pMember lim n) (pMember lim n)
  comma : Natl (recaseT f) (rcComma f) (pComma lim n) (pComma lim n)
  val : Natl (recaseT f) (rcVal f) (pVal lim n) (pVal lim n)
  sym : Natl (recaseT f) (rcSym f) (pSym lim n) (pSym lim n)
  arg : Natl (recaseT f) (rcArg f) (pArg lim n) (pArg lim n)
  col : Natl (recaseT f) (rcCol f) (pCol lim n) (pCol lim n)
  plugin : Natl (recaseT f) (rcPlugin f) (pPlugin lim n) (pPlugin lim n)
  select : Natl (recaseT f) (rcSelect f) (pSelect lim n) (pSelect lim n)

theorem natl_args {n : Nat} (h : Natl (recaseT f) (rcArg f) (pArg lim n) (pArg lim n)) :
    Natl (recaseT f) (List.map (rcArg f))
      ((lit (bs "(")).bind fun _ => (opt (sepBy (pArg lim n) n)).bind fun as =>
        (need (lit (bs ")"))).bind fun _ => ret (as.getD []))
      ((lit (bs "(")).bind fun _ => (opt (sepBy (pArg lim n) n)).bind fun as =>
        (need (lit (bs ")"))).bind fun _ => ret (as.getD [])) :=
  (natl_lit hf (by decide)).bind fun _ => (h.sepBy (natl_lit hf (by decide)) n).opt.bind fun as =>
    (natl_lit hf (by decide)).need.bind fun _ => Natl.ret (by cases as <;> rfl)

theorem nats (n : Nat) : Nats f lim n := by
  induction n with
  | zero => constructor <;> exact Natl.fuel
  | succ n ih =>
    constructor
    · refine natl_optC.bind fun cs => ih.or_.need.bind fun l => ?_
      exact (Natl.many (g := rcAndT f) (Natl.bind (Natl.alt (natl_tok_kept rfl) (natl_tok_kept rfl)) fun op =>
        ih.or_.need.fin fun t => (by rfl)) n).fin fun rs => by rw [rcAnd, rcAndTs_eq]; rfl
    · refine natl_optC.bind fun cs => ih.cond.need.bind fun l => ?_
      exact (Natl.many (g := rcOrT f) (Natl.bind (Natl.alt (natl_tok_kept rfl) (natl_tok_kept rfl)) fun op =>
        ih.cond.need.fin fun t => (by rfl)) n).fin fun rs => by rw [rcOr, rcOrTs_eq]; rfl
    · refine natl_optC.bind fun cs => Natl.need (Natl.alt ((natl_tok _).bind fun _ => ih.cond.need.fin fun c => (by rfl)) ?_)
      refine ih.add.bind fun l => ?_
      exact (Natl.many (g := rcCmpT f) ((natl_cmpOp hf).bind fun op => ih.add.need.fin fun r => (by rfl)) n).fin fun rs => by
        rw [rcCond, rcCmp_eq, List.getLast?_map]; rfl
    · refine natl_optC.bind fun cs => ih.mul.need.bind fun l => ?_
      exact (Natl.many (g := rcAddT f) (Natl.bind (Natl.alt (natl_lit hf (by decide)) (natl_lit hf (by decide))) fun op =>
        ih.mul.need.fin fun t => (by rfl)) n).fin fun rs => by rw [rcAdd, rcAddTs_eq]; rfl
    · refine natl_optC.bind fun cs => ih.member.need.bind fun l => ?_
      exact (Natl.many (g := rcMulT f) (Natl.bind (Natl.alt (natl_lit hf (by decide)) (natl_lit hf (by decide))) fun op =>
        ih.val.need.fin fun t => (by rfl)) n).fin fun rs => by rw [rcMul, rcMulTs_eq]; rfl
    · refine natl_optC.bind fun cs => ih.val.need.bind fun l => ?_
      refine (Natl.many (g := rcMTerm f) (Natl.alt ?_ ((natl_lit hf (by decide)).bind fun _ =>
        (natl_tok_id rfl rfl).need.fin fun i => (by rfl))) n).fin fun rs => by rw [rcMember, rcMTerms_eq]; rfl
      refine (natl_lit hf (by decide)).bind fun _ => (ih.val.many n).bind fun is =>
        ((natl_lit hf (by decide)).many n).bind fun cl => (ih.val.many n).bind fun js =>
        (natl_lit hf (by decide)).need.fin fun _ => ?_
      simp only [List.map_id, List.getLast?_map]
      split
      · cases is.getLast? <;> rfl
      · rw [rcMTerm, rcOptVal_eq, rcOptVal_eq]
    · refine natl_optC.bind fun cs => ih.and_.need.bind fun l => ?_
      refine (Natl.many (g := rcCommaT f) (natl_optC.bind fun c1 => (natl_lit hf (by decide)).need.bind fun _ =>
        natl_optC.bind fun c2 => (ih.and_.many n).fin fun ts => ?_) n).fin fun rs => by rw [rcComma, rcCommaTs_eq]; rfl
      rw [rcCommaT, List.getLast?_map]; rfl
    · refine natl_optC.bind fun cs => Natl.bind (g := rcValB f) (Natl.need ?_) fun b => Natl.ret (by rfl)
      refine Natl.alt (ih.sym.map fun _ => (by rfl)) (Natl.alt ?_ (Natl.alt ?_ (Natl.alt ?_ (Natl.alt ?_ ?_))))
      · exact (natl_lit hf (by decide)).bind fun _ => ih.comma.need.bind fun c =>
          (natl_lit hf (by decide)).need.fin fun _ => (by rfl)
      · exact (Natl.alt (natl_tok_id rfl rfl) (natl_tok_id rfl rfl)).map fun _ => (by rfl)
      · exact (natl_tok_id rfl rfl).map fun _ => (by rfl)
      · exact (natl_tok_kept rfl).map fun _ => (by rfl)
      · exact (natl_tok _).map fun _ => (by rfl)
    · refine natl_optC.bind fun cs =>
        (natl_dotted hf (Natl.alt (natl_tok_id rfl rfl) (natl_tok_id rfl rfl)) n).need.bind fun s => ?_
      exact ((natl_args hf ih.arg).many n).fin fun calls => by
        simp [rcSym, rcArgs_eq, List.map_flatten]
    · refine natl_optC.bind fun cs => (natl_tok_id rfl rfl).need.bind fun i => (natl_lit hf (by decide)).need.bind fun _ =>
        Natl.bind (g := rcArgV f) (Natl.need ?_) fun v => Natl.ret (by rfl)
      refine Natl.alt ?_ (Natl.alt ?_ (ih.and_.map fun _ => (by rfl)))
      · exact (natl_lit hf (by decide)).bind fun _ => ih.select.need.bind fun q =>
          (natl_lit hf (by decide)).need.fin fun _ => (by rfl)
      · exact (natl_lit hf (by decide)).bind fun _ => ih.comma.opt.bind fun c =>
          (natl_lit hf (by decide)).need.fin fun _ => by cases c <;> rfl
    · refine (natl_comments n).bind fun cs => Natl.bind (g := rcColB f) (Natl.need ?_) fun b =>
        (((natl_tok _).bind fun _ => (natl_tok_id rfl rfl).need).opt).fin fun a => ?_
      · refine Natl.alt ((natl_lit hf (by decide)).map fun _ => (by rfl)) (Natl.alt ?_ (ih.and_.map fun _ => (by rfl)))
        exact (natl_lit hf (by decide)).bind fun _ => ih.select.need.bind fun q =>
          (natl_lit hf (by decide)).need.fin fun _ => (by rfl)
      · cases a <;> rfl
    · refine (natl_dotted hf (natl_tok_id rfl rfl) n).bind fun s => (natl_args hf ih.arg).opt.fin fun args => ?_
      rw [rcPlugin, rcArgs_eq]
      cases args <;> rfl
    · refine (natl_comments n).bind fun cs => ((natl_tok _).many n).bind fun ex => (natl_tok _).need.bind fun _ =>
        ((natl_lit hf (by decide)).bind fun _ => (natl_lit hf (by decide)).opt).opt.bind fun all =>
        (ih.col.sepBy (natl_lit hf (by decide)) n).opt.bind fun cols => ?_
      have e : ((Option.map (Option.map id) all).isNone ∧ (Option.map (List.map (rcCol f)) cols).isNone) ↔
          (all.isNone ∧ cols.isNone) := by simp
      by_cases he : all.isNone ∧ cols.isNone
      · rw [if_pos he, if_pos (e.2 he)]; exact Natl.fail
      rw [if_neg he, if_neg (fun h => he (e.1 h))]
      refine (natl_tok _).need.bind fun _ => ih.plugin.need.bind fun from_ =>
        ((natl_tok _).bind fun _ => ih.comma.need).opt.bind fun wh =>
        ((natl_tok _).bind fun _ => ih.comma.need).opt.bind fun gb =>
        Natl.bind (g := Option.map id) (Natl.opt (g := id) ((natl_tok _).bind fun _ => (natl_tok_id rfl rfl).need.bind fun k => (natl_tok _).opt.fin fun d => ?_)) fun ob =>
        ((natl_tok _).bind fun _ => (natl_tok_id rfl rfl).need).opt.bind fun l => ?_
      · cases d <;> rfl
      have e2 : (List.map (recase f TK.explain) ex).isEmpty = ex.isEmpty := by simp
      have e3 : (Option.map (Option.map id) all).isSome = all.isSome := by simp
      have e4 : (Option.map (List.map (rcCol f)) cols).getD [] = rcCols f (cols.getD []) := by
        rw [rcCols_eq]; cases cols <;> rfl
      rw [e2, e3, e4, Option.map_id, Option.map_id, ← rcOptComma_eq, ← rcOptComma_eq]
      cases l with
      | none => exact Natl.ret (by rfl)
      | some t =>
        show Natl _ _ (match lim t with
          | none => _
          | some i => _) (match lim t with
          | none => _
          | some i => _)
        cases lim t with
        | none => exact Natl.fail
        | some i => exact Natl.ret (by rfl)

theorem natl_stmt (n : Nat) : Natl (recaseT f) (rcStmt f) (pStmt lim n) (pStmt lim n) := by
  have ih := nats (lim := lim) hf n
  refine Natl.alt ?_ (ih.select.map fun _ => (by rfl))
  have hp : Natl (recaseT f) (rcParam f) (pLetParam lim n) (pLetParam lim n) :=
    Natl.alt (ih.arg.map fun _ => (by rfl)) ((natl_tok_id rfl rfl).map fun _ => (by rfl))
  refine (natl_tok _).bind fun _ => (natl_tok_id rfl rfl).need.bind fun name =>
    Natl.bind (g := Option.map (List.map (rcParam f))) (Natl.opt ?_) fun ps =>
    (Natl.alt (natl_lit hf (by decide)) (natl_lit hf (by decide))).need.bind fun op =>
    Natl.bind (g := rcBody f) (Natl.need (Natl.alt (ih.select.map fun _ => (by rfl)) (ih.and_.map fun _ => (by rfl)))) fun b =>
    Natl.ret ?_
  · exact (natl_lit hf (by decide)).bind fun _ => (hp.sepBy (natl_lit hf (by decide)) n).opt.bind fun as =>
      (natl_lit hf (by decide)).need.fin fun _ => by cases as <;> rfl
  · cases ps <;> rfl

omit hf in
theorem rc_withComments (cs : List Comment) (s : CStmt) : (rcStmt f s).withComments cs = rcStmt f (s.withComments cs) := by
  cases s <;> rfl

omit hf in
theorem rc_giveComments (cs : List Comment) (l : List CStmt) :
    giveComments cs (l.map (rcStmt f)) = (giveComments cs l).map (rcStmt f) := by
  rcases l with _ | ⟨s, l⟩
  · rfl
  · cases s <;> rfl

theorem natl_multi : ∀ n : Nat, Natl (recaseT f) (List.map (rcStmt f)) (pMulti lim n) (pMulti lim n)
  | 0 => Natl.fuel
  | n + 1 => by
    refine (natl_comments n).bind fun cs => (natl_stmt hf n).need.bind fun s => (natl_comments n).bind fun c2 =>
      ((natl_multi n).many n).fin fun rest => ?_
    rw [List.map_cons, rc_withComments, List.getLast?_map, ← rc_giveComments]
    cases rest.getLast? <;> rfl

omit hf in
theorem natl_complete {α β : Type} {c : Tok → Tok} {g : α → β} {p : P α} {q : P β} (h : Natl c g p q) (ts : List Tok) :
    complete q (ts.map c) = (complete p ts).map g := by
  simp only [complete, h ts]
  cases p ts with
  | ok a r => cases r <;> rfl
  | _ => rfl

omit hf in
theorem recase_drop (ts : List Tok) : dropComments (ts.map (recaseT f)) = (dropComments ts).map (recaseT f) := by
  simp only [dropComments, List.filter_map]
  rfl

omit hf in
theorem fuelFor_map (ts : List Tok) : fuelFor (ts.map (recaseT f)) = fuelFor ts := by simp [fuelFor]

end

mutual
theorem rcAnd_id : ∀ e : CAnd, rcAnd id e = e
  | .mk cs l rs => by simp only [rcAnd, rcOr_id l, rcAndTs_id rs, id]
theorem rcAndTs_id : ∀ e : List CAndT, rcAndTs id e = e
  | [] => by simp only [rcAndTs, id]
  | .mk op t :: rs => by simp only [rcAndTs, rcOr_id t, rcAndTs_id rs, id]
theorem rcOr_id : ∀ e : COr, rcOr id e = e
  | .mk cs l rs => by simp only [rcOr, rcCond_id l, rcOrTs_id rs, id]
theorem rcOrTs_id : ∀ e : List COrT, rcOrTs id e = e
  | [] => by simp only [rcOrTs, id]
  | .mk op t :: rs => by simp only [rcOrTs, rcCond_id t, rcOrTs_id rs, id]
theorem rcCond_id : ∀ e : CCond, rcCond id e = e
  | .not cs c => by simp only [rcCond, rcCond_id c, id]
  | .cmp cs l r => by simp only [rcCond, rcAdd_id l, rcCmp_id r, id]
theorem rcCmp_id : ∀ e : Option CCmpT, rcCmp id e = e
  | none => by simp only [rcCmp, id]
  | some (.mk op r) => by simp only [rcCmp, rcAdd_id r, id]
theorem rcAdd_id : ∀ e : CAdd, rcAdd id e = e
  | .mk cs l rs => by simp only [rcAdd, rcMul_id l, rcAddTs_id rs, id]
theorem rcAddTs_id : ∀ e : List CAddT, rcAddTs id e = e
  | [] => by simp only [rcAddTs, id]
  | .mk op t :: rs => by simp only [rcAddTs, rcMul_id t, rcAddTs_id rs, id]
theorem rcMul_id : ∀ e : CMul, rcMul id e = e
  | .mk cs l rs => by simp only [rcMul, rcMember_id l, rcMulTs_id rs, id]
theorem rcMulTs_id : ∀ e : List CMulT, rcMulTs id e = e
  | [] => by simp only [rcMulTs, id]
  | .mk op t :: rs => by simp only [rcMulTs, rcVal_id t, rcMulTs_id rs, id]
theorem rcMember_id : ∀ e : CMember, rcMember id e = e
  | .mk cs l rs => by simp only [rcMember, rcVal_id l, rcMTerms_id rs, id]
theorem rcMTerms_id : ∀ e : List CMTerm, rcMTerms id e = e
  | [] => by simp only [rcMTerms, id]
  | .range i j :: rs => by simp only [rcMTerms, rcOptVal_id i, rcOptVal_id j, rcMTerms_id rs, id]
  | .index i :: rs => by simp only [rcMTerms, rcVal_id i, rcMTerms_id rs, id]
  | .field n :: rs => by simp only [rcMTerms, rcMTerms_id rs, id]
  | .empty :: rs => by simp only [rcMTerms, rcMTerms_id rs, id]
theorem rcOptVal_id : ∀ e : Option CVal, rcOptVal id e = e
  | none => by simp only [rcOptVal, id]
  | some x => by simp only [rcOptVal, rcVal_id x, id]
theorem rcComma_id : ∀ e : CComma, rcComma id e = e
  | .mk cs l rs => by simp only [rcComma, rcAnd_id l, rcCommaTs_id rs, id]
theorem rcCommaTs_id : ∀ e : List CCommaT, rcCommaTs id e = e
  | [] => by simp only [rcCommaTs, id]
  | .mk c1 c2 none :: rs => by simp only [rcCommaTs, rcCommaTs_id rs, id]
  | .mk c1 c2 (some t) :: rs => by simp only [rcCommaTs, rcAnd_id t, rcCommaTs_id rs, id]
theorem rcVal_id : ∀ e : CVal, rcVal id e = e
  | .mk cs b => by simp only [rcVal, rcValB_id b, id]
theorem rcValB_id : ∀ e : CValB, rcValB id e = e
  | .sym s => by simp only [rcValB, rcSym_id s, id]
  | .sub c => by simp only [rcValB, rcComma_id c, id]
  | .str t => by simp only [rcValB, id]
  | .num t => by simp only [rcValB, id]
  | .bool t => by simp only [rcValB, id]
  | .null => by simp only [rcValB, id]
theorem rcSym_id : ∀ e : CSym, rcSym id e = e
  | .mk cs n called ps => by simp only [rcSym, rcArgs_id ps, id]
theorem rcArgs_id : ∀ e : List CArg, rcArgs id e = e
  | [] => by simp only [rcArgs, id]
  | a :: as => by simp only [rcArgs, rcArg_id a, rcArgs_id as, id]
theorem rcArg_id : ∀ e : CArg, rcArg id e = e
  | .mk cs n r => by simp only [rcArg, rcArgV_id r, id]
theorem rcArgV_id : ∀ e : CArgV, rcArgV id e = e
  | .expr e => by simp only [rcArgV, rcAnd_id e, id]
  | .select q => by simp only [rcArgV, rcSelect_id q, id]
  | .array c => by simp only [rcArgV, rcComma_id c, id]
  | .empty => by simp only [rcArgV, id]
theorem rcSelect_id : ∀ e : CSelect, rcSelect id e = e
  | .mk cs ex all cols from_ wh gb ob l => by simp only [rcSelect, rcCols_id cols, rcPlugin_id from_, rcOptComma_id wh, rcOptComma_id gb, id]
theorem rcOptComma_id : ∀ e : Option CComma, rcOptComma id e = e
  | none => by simp only [rcOptComma, id]
  | some c => by simp only [rcOptComma, rcComma_id c, id]
theorem rcCols_id : ∀ e : List CCol, rcCols id e = e
  | [] => by simp only [rcCols, id]
  | c :: cs => by simp only [rcCols, rcCol_id c, rcCols_id cs, id]
theorem rcCol_id : ∀ e : CCol, rcCol id e = e
  | .mk cs b a => by simp only [rcCol, rcColB_id b, id]
theorem rcColB_id : ∀ e : CColB, rcColB id e = e
  | .star => by simp only [rcColB, id]
  | .expr e => by simp only [rcColB, rcAnd_id e, id]
  | .select q => by simp only [rcColB, rcSelect_id q, id]
theorem rcPlugin_id : ∀ e : CPlugin, rcPlugin id e = e
  | .mk n call args => by simp only [rcPlugin, rcArgs_id args, id]
end

theorem rcStmt_id : ∀ s : CStmt, rcStmt id s = s
  | .let_ cs n called ps op b => by
    have h1 : ps.map (rcParam id) = ps := by
      have : rcParam id = id := by
        funext p
        cases p <;> simp [rcParam, rcArg_id]
      rw [this, List.map_id]
    have h2 : rcBody id b = b := by cases b <;> simp [rcBody, rcAnd_id, rcSelect_id]
    rw [rcStmt, h1, h2]
  | .query cs q => by rw [rcStmt, rcSelect_id]

end Vfilter.Fmt
