import Verif.Lower
import Verif.RoundFinal
import Verif.EvalExpr
import Verif.Props.Spacing
import Verif.Builtins
/-!
# C76: which operator takes which operands

An expression is read and evaluated like the binary tree that the table of precedences gives:
`*` and `/` first, then `+` and `-`, one comparison, NOT, OR, and AND last; from left to right
within one row.
-/

set_option linter.all false

namespace Vfilter.Fmt.Prec
open Vql

/-! ## The table -/

/-- Expressions as binary trees; `α` are the operands. -/
inductive Bin (α : Type) where
  | leaf (a : α)
  | mul (op : Str) (l r : Bin α)
  | add (op : Str) (l r : Bin α)
  | cmp (op : Str) (l r : Bin α)
  | not (e : Bin α)
  | or (op : Str) (l r : Bin α)
  | and (op : Str) (l r : Bin α)

/-- An operand without indexes, such as `a.b`, `f(x=1)` or `'x'`. -/
def bare : CMember → Bool
  | .mk _ _ rs => rs.isEmpty

/-- The table: the higher the tighter. -/
def Bin.prec : Bin CMember → Nat
  | .leaf a => if bare a then 6 else 5
  | .mul .. => 4
  | .add .. => 3
  | .cmp .. => 2
  | .not _ => 2
  | .or .. => 1
  | .and .. => 0

/-- In parentheses unless at least as tight as `k`. -/
def par (k p : Nat) (ts : List Tok) : List Tok :=
  if k ≤ p then ts else ⟨.op, bs "("⟩ :: ts ++ [⟨.op, bs ")"⟩]

/-- The words of an expression, with parentheses where the table asks for them.  The right operand
of `+`, `-`, AND and OR has to be tighter than the operator, the left one only as tight. -/
def Bin.words : Bin CMember → List Tok
  | .leaf a => toks (itMember a)
  | .mul op l r => par 4 l.prec l.words ++ ⟨.op, op⟩ :: par 6 r.prec r.words
  | .add op l r => par 3 l.prec l.words ++ ⟨.op, op⟩ :: par 4 r.prec r.words
  | .cmp op l r => par 3 l.prec l.words ++ cmpTok op :: par 3 r.prec r.words
  | .not e => ⟨.not_, bs "NOT"⟩ :: par 2 e.prec e.words
  | .or op l r => par 1 l.prec l.words ++ orTok op :: par 2 r.prec r.words
  | .and op l r => par 0 l.prec l.words ++ andTok op :: par 1 r.prec r.words

/-- Operators that the lexer knows, and operands without comments. -/
def Bin.Good (lim : Str → Option Int) : Bin CMember → Prop
  | .leaf a => wMember id lim a
  | .mul op l r => op ∈ [bs "*", bs "/"] ∧ l.Good lim ∧ r.Good lim
  | .add op l r => op ∈ [bs "+", bs "-"] ∧ l.Good lim ∧ r.Good lim
  | .cmp op l r => op ∈ cmpOps ∧ l.Good lim ∧ r.Good lim
  | .not e => e.Good lim
  | .or op l r => (IsTok .or_ op ∨ IsTok .altOr op) ∧ l.Good lim ∧ r.Good lim
  | .and op l r => (IsTok .and_ op ∨ IsTok .altAnd op) ∧ l.Good lim ∧ r.Good lim

/-! ## The trees of the grammar -/

/-- A tree of the grammar, of the tightest kind that it fits. -/
inductive CLev where
  | mem (e : CMember)
  | mul (e : CMul)
  | add (e : CAdd)
  | cond (e : CCond)
  | or (e : COr)
  | and (e : CAnd)

def CLev.and_ : CLev → CAnd
  | .mem e => .mk [] (.mk [] (.cmp [] (.mk [] (.mk [] e []) []) none) []) []
  | .mul e => .mk [] (.mk [] (.cmp [] (.mk [] e []) none) []) []
  | .add e => .mk [] (.mk [] (.cmp [] e none) []) []
  | .cond e => .mk [] (.mk [] e []) []
  | .or e => .mk [] e []
  | .and e => e

/-- In parentheses. -/
def CLev.sub (x : CLev) : CVal := .mk [] (.sub (.mk [] x.and_ []))

def CLev.val : CLev → CVal
  | .mem (.mk cs v []) => v
  | x => x.sub
def CLev.mem_ : CLev → CMember
  | .mem e => e
  | x => .mk [] x.sub []
def CLev.mul_ : CLev → CMul
  | .mem e => .mk [] e []
  | .mul e => e
  | x => .mk [] (.mk [] x.sub []) []
def CLev.add_ : CLev → CAdd
  | .mem e => .mk [] (.mk [] e []) []
  | .mul e => .mk [] e []
  | .add e => e
  | x => .mk [] (.mk [] (.mk [] x.sub []) []) []
def CLev.cond_ : CLev → CCond
  | .mem e => .cmp [] (.mk [] (.mk [] e []) []) none
  | .mul e => .cmp [] (.mk [] e []) none
  | .add e => .cmp [] e none
  | .cond e => e
  | x => .cmp [] (.mk [] (.mk [] (.mk [] x.sub []) []) []) none
def CLev.or_ : CLev → COr
  | .mem e => .mk [] (.cmp [] (.mk [] (.mk [] e []) []) none) []
  | .mul e => .mk [] (.cmp [] (.mk [] e []) none) []
  | .add e => .mk [] (.cmp [] e none) []
  | .cond e => .mk [] e []
  | .or e => e
  | x => .mk [] (.cmp [] (.mk [] (.mk [] (.mk [] x.sub []) []) []) none) []

def cMul : CMul → Str → CVal → CMul
  | .mk cs l rs, op, t => .mk cs l (rs ++ [.mk op t])
def cAdd : CAdd → Str → CMul → CAdd
  | .mk cs l rs, op, t => .mk cs l (rs ++ [.mk op t])
def cOr : COr → Str → CCond → COr
  | .mk cs l rs, op, t => .mk cs l (rs ++ [.mk op t])
def cAnd : CAnd → Str → COr → CAnd
  | .mk cs l rs, op, t => .mk cs l (rs ++ [.mk op t])

/-- The tree of the grammar for an expression. -/
def Bin.tree : Bin CMember → CLev
  | .leaf a => .mem a
  | .mul op l r => .mul (cMul l.tree.mul_ op r.tree.val)
  | .add op l r => .add (cAdd l.tree.add_ op r.tree.mul_)
  | .cmp op l r => .cond (.cmp [] l.tree.add_ (some (.mk op r.tree.add_)))
  | .not e => .cond (.not [] e.tree.cond_)
  | .or op l r => .or (cOr l.tree.or_ op r.tree.cond_)
  | .and op l r => .and (cAnd l.tree.and_ op r.tree.or_)

/-! ## Reading -/

section
variable (lim : Str → Option Int)

/-- The words of a tree of the grammar. -/
def CLev.words : CLev → List Tok
  | .mem e => toks (itMember e)
  | .mul e => toks (itMul e)
  | .add e => toks (itAdd e)
  | .cond e => toks (itCond e)
  | .or e => toks (itOr e)
  | .and e => toks (itAnd e)

/-- The row of the table. -/
def CLev.prec : CLev → Nat
  | .mem a => if bare a then 6 else 5
  | .mul _ => 4
  | .add _ => 3
  | .cond _ => 2
  | .or _ => 1
  | .and _ => 0

def CLev.w : CLev → Prop
  | .mem e => wMember id lim e
  | .mul e => wMul id lim e
  | .add e => wAdd id lim e
  | .cond e => wCond id lim e
  | .or e => wOr id lim e
  | .and e => wAnd id lim e

theorem and_words (x : CLev) : toks (itAnd x.and_) = x.words := by
  cases x <;> simp [CLev.and_, CLev.words, itAnd, itAndTs, itOr, itOrTs, itCond, itCmp, itAdd, itAddTs, itMul, itMulTs]

theorem and_w {x : CLev} (h : x.w lim) : wAnd id lim x.and_ := by
  cases x <;> simpa [CLev.and_, CLev.w, wAnd, wAndTs, wOr, wOrTs, wCond, wCmp, wAdd, wAddTs, wMul, wMulTs] using h

theorem sub_words (x : CLev) : toks (itVal x.sub) = ⟨.op, bs "("⟩ :: x.words ++ [⟨.op, bs ")"⟩] := by
  simp [CLev.sub, itVal, itValB, itComma, itCommaTs, commaGap, bareEnd, toks_append, and_words, iop, toks_some, toks_nil]

theorem sub_w {x : CLev} (h : x.w lim) : wVal id lim x.sub := by
  simpa [CLev.sub, wVal, wValB, wComma, wCommaTs] using and_w lim h

theorem val_words (x : CLev) : toks (itVal x.val) = par 6 x.prec x.words := by
  rcases x with ⟨⟨cs, v, _ | ⟨r, rs⟩⟩⟩ | e | e | e | e | e <;>
    simp [CLev.val, CLev.prec, bare, par, sub_words, CLev.words, itMember, itMTerms]

theorem mul_words (x : CLev) : toks (itMul x.mul_) = par 4 x.prec x.words := by
  rcases x with ⟨⟨cs, v, _ | ⟨r, rs⟩⟩⟩ | e | e | e | e | e <;>
    simp [CLev.mul_, CLev.prec, bare, par, sub_words, CLev.words, itMember, itMTerms, itMul, itMulTs]

theorem add_words (x : CLev) : toks (itAdd x.add_) = par 3 x.prec x.words := by
  rcases x with ⟨⟨cs, v, _ | ⟨r, rs⟩⟩⟩ | e | e | e | e | e <;>
    simp [CLev.add_, CLev.prec, bare, par, sub_words, CLev.words, itMember, itMTerms, itMul, itMulTs, itAdd, itAddTs]

theorem cond_words (x : CLev) : toks (itCond x.cond_) = par 2 x.prec x.words := by
  rcases x with ⟨⟨cs, v, _ | ⟨r, rs⟩⟩⟩ | e | e | e | e | e <;>
    simp [CLev.cond_, CLev.prec, bare, par, sub_words, CLev.words, itMember, itMTerms, itMul, itMulTs, itAdd, itAddTs,
      itCond, itCmp]

theorem or_words (x : CLev) : toks (itOr x.or_) = par 1 x.prec x.words := by
  rcases x with ⟨⟨cs, v, _ | ⟨r, rs⟩⟩⟩ | e | e | e | e | e <;>
    simp [CLev.or_, CLev.prec, bare, par, sub_words, CLev.words, itMember, itMTerms, itMul, itMulTs, itAdd, itAddTs,
      itCond, itCmp, itOr, itOrTs]

theorem val_w {x : CLev} (h : x.w lim) : wVal id lim x.val := by
  rcases x with ⟨⟨cs, v, _ | ⟨r, rs⟩⟩⟩ | e | e | e | e | e
  · exact h.2.1
  all_goals exact sub_w lim h

theorem memOf_w {x : CLev} (h : x.w lim) : wMember id lim (.mk [] x.sub []) :=
  ⟨rfl, sub_w lim h, trivial, fun _ => rfl⟩

theorem mulOf_w {e : CMember} (h : wMember id lim e) : wMul id lim (.mk [] e []) := ⟨rfl, h, trivial⟩
theorem addOf_w {e : CMul} (h : wMul id lim e) : wAdd id lim (.mk [] e []) := ⟨rfl, h, trivial⟩
theorem condOf_w {e : CAdd} (h : wAdd id lim e) : wCond id lim (.cmp [] e none) := ⟨rfl, h, trivial⟩
theorem orOf_w {e : CCond} (h : wCond id lim e) : wOr id lim (.mk [] e []) := ⟨rfl, h, trivial⟩

theorem mul_w {x : CLev} (h : x.w lim) : wMul id lim x.mul_ := by
  cases x <;> first | exact h | exact mulOf_w lim h | exact mulOf_w lim (memOf_w lim h)

theorem add_w {x : CLev} (h : x.w lim) : wAdd id lim x.add_ := by
  cases x <;> first | exact h | exact addOf_w lim h | exact addOf_w lim (mulOf_w lim h) |
    exact addOf_w lim (mulOf_w lim (memOf_w lim h))

theorem cond_w {x : CLev} (h : x.w lim) : wCond id lim x.cond_ := by
  cases x <;> first | exact h | exact condOf_w lim h | exact condOf_w lim (addOf_w lim h) |
    exact condOf_w lim (addOf_w lim (mulOf_w lim h)) |
    exact condOf_w lim (addOf_w lim (mulOf_w lim (memOf_w lim h)))

theorem or_w {x : CLev} (h : x.w lim) : wOr id lim x.or_ := by
  cases x <;> first | exact h | exact orOf_w lim h | exact orOf_w lim (condOf_w lim h) |
    exact orOf_w lim (condOf_w lim (addOf_w lim h)) |
    exact orOf_w lim (condOf_w lim (addOf_w lim (mulOf_w lim h))) |
    exact orOf_w lim (condOf_w lim (addOf_w lim (mulOf_w lim (memOf_w lim h))))

theorem mulTs_snoc (op : Str) (t : CVal) : ∀ rs : List CMulT,
    toks (itMulTs (rs ++ [.mk op t])) = toks (itMulTs rs) ++ ⟨.op, op⟩ :: toks (itVal t)
  | [] => by simp [itMulTs, toks, iop]
  | .mk o u :: rs => by
    simp only [List.cons_append, itMulTs, toks_none, iop, toks_some, toks_append, mulTs_snoc op t rs, List.append_assoc]

theorem addTs_snoc (op : Str) (t : CMul) : ∀ rs : List CAddT,
    toks (itAddTs (rs ++ [.mk op t])) = toks (itAddTs rs) ++ ⟨.op, op⟩ :: toks (itMul t)
  | [] => by simp [itAddTs, toks, iop]
  | .mk o u :: rs => by
    simp only [List.cons_append, itAddTs, toks_none, iop, toks_some, toks_append, addTs_snoc op t rs, List.append_assoc]

theorem orTs_snoc (op : Str) (t : CCond) : ∀ rs : List COrT,
    toks (itOrTs (rs ++ [.mk op t])) = toks (itOrTs rs) ++ orTok op :: toks (itCond t)
  | [] => by simp [itOrTs, toks]
  | .mk o u :: rs => by
    simp only [List.cons_append, itOrTs, toks_none, toks_some, toks_append, orTs_snoc op t rs, List.append_assoc]

theorem andTs_snoc (op : Str) (t : COr) : ∀ rs : List CAndT,
    toks (itAndTs (rs ++ [.mk op t])) = toks (itAndTs rs) ++ andTok op :: toks (itOr t)
  | [] => by simp [itAndTs, toks]
  | .mk o u :: rs => by
    simp only [List.cons_append, itAndTs, toks_none, toks_some, toks_append, andTs_snoc op t rs, List.append_assoc]

theorem tree_prec (b : Bin CMember) : b.tree.prec = b.prec := by cases b <;> rfl

theorem par_zero (p : Nat) (ts : List Tok) : par 0 p ts = ts := if_pos (Nat.zero_le _)

theorem tree_words : ∀ b : Bin CMember, b.tree.words = b.words
  | .leaf a => rfl
  | .mul op l r => by
    have h1 := mul_words l.tree
    have h2 := val_words r.tree
    rw [tree_words l, tree_prec] at h1
    rw [tree_words r, tree_prec] at h2
    simp only [Bin.tree, Bin.words, CLev.words, ← h1, ← h2]
    generalize l.tree.mul_ = e
    obtain ⟨cs, a, rs⟩ := e
    simp only [cMul, itMul, toks_append, mulTs_snoc, List.append_assoc]
  | .add op l r => by
    have h1 := add_words l.tree
    have h2 := mul_words r.tree
    rw [tree_words l, tree_prec] at h1
    rw [tree_words r, tree_prec] at h2
    simp only [Bin.tree, Bin.words, CLev.words, ← h1, ← h2]
    generalize l.tree.add_ = e
    obtain ⟨cs, a, rs⟩ := e
    simp only [cAdd, itAdd, toks_append, addTs_snoc, List.append_assoc]
  | .cmp op l r => by
    have h1 := add_words l.tree
    have h2 := add_words r.tree
    rw [tree_words l, tree_prec] at h1
    rw [tree_words r, tree_prec] at h2
    simp only [Bin.tree, Bin.words, CLev.words, ← h1, ← h2]
    simp only [itCond, itCmp, toks_append, toks_none, toks_some]
  | .not e => by
    have h1 := cond_words e.tree
    rw [tree_words e, tree_prec] at h1
    simp only [Bin.tree, Bin.words, CLev.words, ← h1]
    simp only [itCond, toks_none, toks_some]
  | .or op l r => by
    have h1 := or_words l.tree
    have h2 := cond_words r.tree
    rw [tree_words l, tree_prec] at h1
    rw [tree_words r, tree_prec] at h2
    simp only [Bin.tree, Bin.words, CLev.words, ← h1, ← h2]
    generalize l.tree.or_ = e
    obtain ⟨cs, a, rs⟩ := e
    simp only [cOr, itOr, toks_append, orTs_snoc, List.append_assoc]
  | .and op l r => by
    have h1 := and_words l.tree
    have h2 := or_words r.tree
    rw [tree_words l] at h1
    rw [tree_words r, tree_prec] at h2
    simp only [Bin.tree, Bin.words, CLev.words, ← h1, ← h2, par_zero]
    generalize l.tree.and_ = e
    obtain ⟨cs, a, rs⟩ := e
    simp only [cAnd, itAnd, toks_append, andTs_snoc, List.append_assoc]

theorem mulTs_w {op : Str} {t : CVal} (ho : op ∈ [bs "*", bs "/"]) (ht : wVal id lim t) : ∀ {rs : List CMulT},
    wMulTs id lim rs → wMulTs id lim (rs ++ [.mk op t])
  | [], _ => ⟨ho, ht, trivial⟩
  | .mk o u :: rs, h => ⟨h.1, h.2.1, mulTs_w ho ht h.2.2⟩

theorem addTs_w {op : Str} {t : CMul} (ho : op ∈ [bs "+", bs "-"]) (ht : wMul id lim t) : ∀ {rs : List CAddT},
    wAddTs id lim rs → wAddTs id lim (rs ++ [.mk op t])
  | [], _ => ⟨ho, ht, trivial⟩
  | .mk o u :: rs, h => ⟨h.1, h.2.1, addTs_w ho ht h.2.2⟩

theorem orTs_w {op : Str} {t : CCond} (ho : IsTok .or_ op ∨ IsTok .altOr op) (ht : wCond id lim t) :
    ∀ {rs : List COrT}, wOrTs id lim rs → wOrTs id lim (rs ++ [.mk op t])
  | [], _ => ⟨ho, ht, trivial⟩
  | .mk o u :: rs, h => ⟨h.1, h.2.1, orTs_w ho ht h.2.2⟩

theorem andTs_w {op : Str} {t : COr} (ho : IsTok .and_ op ∨ IsTok .altAnd op) (ht : wOr id lim t) :
    ∀ {rs : List CAndT}, wAndTs id lim rs → wAndTs id lim (rs ++ [.mk op t])
  | [], _ => ⟨ho, ht, trivial⟩
  | .mk o u :: rs, h => ⟨h.1, h.2.1, andTs_w ho ht h.2.2⟩

theorem tree_w : ∀ {b : Bin CMember}, b.Good lim → b.tree.w lim
  | .leaf a, h => h
  | .mul op l r, ⟨ho, hl, hr⟩ => by
    have h1 := mul_w lim (tree_w hl)
    have h2 := val_w lim (tree_w hr)
    simp only [Bin.tree, CLev.w]
    generalize l.tree.mul_ = e at h1
    obtain ⟨cs, a, rs⟩ := e
    exact ⟨h1.1, h1.2.1, mulTs_w lim ho h2 h1.2.2⟩
  | .add op l r, ⟨ho, hl, hr⟩ => by
    have h1 := add_w lim (tree_w hl)
    have h2 := mul_w lim (tree_w hr)
    simp only [Bin.tree, CLev.w]
    generalize l.tree.add_ = e at h1
    obtain ⟨cs, a, rs⟩ := e
    exact ⟨h1.1, h1.2.1, addTs_w lim ho h2 h1.2.2⟩
  | .cmp op l r, ⟨ho, hl, hr⟩ => ⟨rfl, add_w lim (tree_w hl), ho, add_w lim (tree_w hr)⟩
  | .not e, h => ⟨rfl, cond_w lim (tree_w h)⟩
  | .or op l r, ⟨ho, hl, hr⟩ => by
    have h1 := or_w lim (tree_w hl)
    have h2 := cond_w lim (tree_w hr)
    simp only [Bin.tree, CLev.w]
    generalize l.tree.or_ = e at h1
    obtain ⟨cs, a, rs⟩ := e
    exact ⟨h1.1, h1.2.1, orTs_w lim ho h2 h1.2.2⟩
  | .and op l r, ⟨ho, hl, hr⟩ => by
    have h1 := and_w lim (tree_w hl)
    have h2 := or_w lim (tree_w hr)
    simp only [Bin.tree, CLev.w]
    generalize l.tree.and_ = e at h1
    obtain ⟨cs, a, rs⟩ := e
    exact ⟨h1.1, h1.2.1, andTs_w lim ho h2 h1.2.2⟩

/-- The words of an expression, in front of anything that does not go on with it, are read as its
tree. -/
theorem reads {b : Bin CMember} (hb : b.Good lim) {n : Nat} (hn : 10 * b.words.length + 8 ≤ n) {R : List Tok}
    (hR : FolAnd R) : pAnd lim n (b.words ++ R) = .ok b.tree.and_ R := by
  have := p_and id lim b.tree.and_ n R (and_w lim (tree_w lim hb))
    (by rw [and_words, tree_words]; exact hn) hR
  rwa [and_words, tree_words] at this
end

/-- The words of `LET x = e` are read as the definition of `x` by the tree of `e`. -/
theorem reads_let {lim : Str → Option Int} {s x : Str} {b : Bin CMember} (hx : IsTok .ident x) (hb : b.Good lim)
    (hs : Spacing.words s = some (⟨.let_, bs "LET"⟩ :: ⟨.ident, x⟩ :: ⟨.op, bs "="⟩ :: b.words)) :
    parse lim s = some (.let_ [] x false [] (bs "=") (.expr b.tree.and_)) := by
  have e : toks (itStmt (.let_ [] x false [] (bs "=") (.expr b.tree.and_))) =
      ⟨.let_, bs "LET"⟩ :: ⟨.ident, x⟩ :: ⟨.op, bs "="⟩ :: b.words := by
    simp [itStmt, itBody, iop, toks_some, toks_none, and_words, tree_words]
  have h := p_stmt id lim (.let_ [] x false [] (bs "=") (.expr b.tree.and_))
    (fuelFor (⟨.let_, bs "LET"⟩ :: ⟨.ident, x⟩ :: ⟨.op, bs "="⟩ :: b.words))
    ⟨rfl, hx, rfl, by simp, Or.inl rfl, and_w lim (tree_w lim hb)⟩ (by rw [e]; unfold fuelFor; omega)
  rw [e] at h
  rw [Spacing.parse_words, hs, Option.bind_some]
  unfold complete
  rw [h]

/-! ## The trees of the evaluator -/

/-- The same for the trees that are evaluated. -/
inductive Lev where
  | mem (e : Member)
  | mul (e : MulE)
  | add (e : AddE)
  | cond (e : Cond)
  | or (e : OrE)
  | and (e : AndE)

def Lev.and_ : Lev → AndE
  | .mem e => .mk (.mk (.cmp (.mk (.mk e []) []) none) []) []
  | .mul e => .mk (.mk (.cmp (.mk e []) none) []) []
  | .add e => .mk (.mk (.cmp e none) []) []
  | .cond e => .mk (.mk e []) []
  | .or e => .mk e []
  | .and e => e

def Lev.sub (x : Lev) : Value := .sub (.mk x.and_ [])

def Lev.val : Lev → Value
  | .mem (.mk v []) => v
  | x => x.sub
def Lev.mul_ : Lev → MulE
  | .mem e => .mk e []
  | .mul e => e
  | x => .mk (.mk x.sub []) []
def Lev.add_ : Lev → AddE
  | .mem e => .mk (.mk e []) []
  | .mul e => .mk e []
  | .add e => e
  | x => .mk (.mk (.mk x.sub []) []) []
def Lev.cond_ : Lev → Cond
  | .mem e => .cmp (.mk (.mk e []) []) none
  | .mul e => .cmp (.mk e []) none
  | .add e => .cmp e none
  | .cond e => e
  | x => .cmp (.mk (.mk (.mk x.sub []) []) []) none
def Lev.or_ : Lev → OrE
  | .mem e => .mk (.cmp (.mk (.mk e []) []) none) []
  | .mul e => .mk (.cmp (.mk e []) none) []
  | .add e => .mk (.cmp e none) []
  | .cond e => .mk e []
  | .or e => e
  | x => .mk (.cmp (.mk (.mk (.mk x.sub []) []) []) none) []

def eMul : MulE → Str → Value → MulE
  | .mk l rs, op, t => .mk l (rs ++ [.mk op t])
def eAdd : AddE → Str → MulE → AddE
  | .mk l rs, op, t => .mk l (rs ++ [.mk op t])
def eOr : OrE → Str → Cond → OrE
  | .mk l rs, op, t => .mk l (rs ++ [.mk op t])
def eAnd : AndE → Str → OrE → AndE
  | .mk l rs, op, t => .mk l (rs ++ [.mk op t])

def Bin.low : Bin Member → Lev
  | .leaf a => .mem a
  | .mul op l r => .mul (eMul l.low.mul_ op r.low.val)
  | .add op l r => .add (eAdd l.low.add_ op r.low.mul_)
  | .cmp op l r => .cond (.cmp l.low.add_ (some (.mk op r.low.add_)))
  | .not e => .cond (.not e.low.cond_)
  | .or op l r => .or (eOr l.low.or_ op r.low.cond_)
  | .and op l r => .and (eAnd l.low.and_ op r.low.or_)

/-- The operands as they are evaluated; the number counts the calls from left to right. -/
def Bin.operands : Bin CMember → Nat → Bin Member × Nat
  | .leaf a, n => let (a, n) := lowMember a n; (.leaf a, n)
  | .mul op l r, n => let (l, n) := l.operands n; let (r, n) := r.operands n; (.mul op l r, n)
  | .add op l r, n => let (l, n) := l.operands n; let (r, n) := r.operands n; (.add op l r, n)
  | .cmp op l r, n => let (l, n) := l.operands n; let (r, n) := r.operands n; (.cmp op l r, n)
  | .not e, n => let (e, n) := e.operands n; (.not e, n)
  | .or op l r, n => let (l, n) := l.operands n; let (r, n) := r.operands n; (.or op l r, n)
  | .and op l r, n => let (l, n) := l.operands n; let (r, n) := r.operands n; (.and op l r, n)

def CLev.low : CLev → Nat → Lev × Nat
  | .mem e, n => (.mem (lowMember e n).1, (lowMember e n).2)
  | .mul e, n => (.mul (lowMul e n).1, (lowMul e n).2)
  | .add e, n => (.add (lowAdd e n).1, (lowAdd e n).2)
  | .cond e, n => (.cond (lowCond e n).1, (lowCond e n).2)
  | .or e, n => (.or (lowOr e n).1, (lowOr e n).2)
  | .and e, n => (.and (lowAnd e n).1, (lowAnd e n).2)

theorem low_and (x : CLev) (n : Nat) : lowAnd x.and_ n = ((x.low n).1.and_, (x.low n).2) := by
  cases x <;> simp [CLev.and_, CLev.low, Lev.and_, lowAnd, lowAndTs, lowOr, lowOrTs, lowCond, lowAdd, lowAddTs,
    lowMul, lowMulTs]

theorem low_sub (x : CLev) (n : Nat) : lowVal x.sub n = ((x.low n).1.sub, (x.low n).2) := by
  simp [CLev.sub, Lev.sub, lowVal, lowValB, lowComma, lowCommaTs, low_and]

theorem low_val (x : CLev) (n : Nat) : lowVal x.val n = ((x.low n).1.val, (x.low n).2) := by
  rcases x with ⟨⟨cs, v, _ | ⟨r, rs⟩⟩⟩ | e | e | e | e | e
  · simp [CLev.val, CLev.low, Lev.val, lowMember, lowMTerms]
  · have h : ∃ r' rs', (lowMember (.mk cs v (r :: rs)) n).1 = .mk (lowVal v n).1 (r' :: rs') := by
      simp only [lowMember]
      cases r <;> simp only [lowMTerms] <;> exact ⟨_, _, rfl⟩
    obtain ⟨r', rs', h⟩ := h
    simp only [CLev.val]
    rw [low_sub]
    simp only [CLev.low, h, Lev.val]
  all_goals
    simp only [CLev.val]
    rw [low_sub]
    simp only [CLev.low, Lev.val]

theorem low_mul (x : CLev) (n : Nat) : lowMul x.mul_ n = ((x.low n).1.mul_, (x.low n).2) := by
  cases x <;> simp only [CLev.mul_, lowMul, lowMulTs, lowMember, lowMTerms, low_sub] <;> simp [CLev.low, Lev.mul_]

theorem low_add (x : CLev) (n : Nat) : lowAdd x.add_ n = ((x.low n).1.add_, (x.low n).2) := by
  cases x <;> simp only [CLev.add_, lowAdd, lowAddTs, lowMul, lowMulTs, lowMember, lowMTerms, low_sub] <;>
    simp [CLev.low, Lev.add_]

theorem low_cond (x : CLev) (n : Nat) : lowCond x.cond_ n = ((x.low n).1.cond_, (x.low n).2) := by
  cases x <;> simp only [CLev.cond_, lowCond, lowAdd, lowAddTs, lowMul, lowMulTs, lowMember, lowMTerms, low_sub] <;>
    simp [CLev.low, Lev.cond_]

theorem low_or (x : CLev) (n : Nat) : lowOr x.or_ n = ((x.low n).1.or_, (x.low n).2) := by
  cases x <;> simp only [CLev.or_, lowOr, lowOrTs, lowCond, lowAdd, lowAddTs, lowMul, lowMulTs, lowMember, lowMTerms,
    low_sub] <;> simp [CLev.low, Lev.or_]

theorem lowMulTs_snoc (op : Str) (t : CVal) : ∀ (rs : List CMulT) (n : Nat), lowMulTs (rs ++ [.mk op t]) n =
    ((lowMulTs rs n).1 ++ [.mk op (lowVal t (lowMulTs rs n).2).1], (lowVal t (lowMulTs rs n).2).2)
  | [], n => by simp [lowMulTs]
  | .mk o u :: rs, n => by simp [lowMulTs, lowMulTs_snoc op t rs]

theorem lowAddTs_snoc (op : Str) (t : CMul) : ∀ (rs : List CAddT) (n : Nat), lowAddTs (rs ++ [.mk op t]) n =
    ((lowAddTs rs n).1 ++ [.mk op (lowMul t (lowAddTs rs n).2).1], (lowMul t (lowAddTs rs n).2).2)
  | [], n => by simp [lowAddTs]
  | .mk o u :: rs, n => by simp [lowAddTs, lowAddTs_snoc op t rs]

theorem lowOrTs_snoc (op : Str) (t : CCond) : ∀ (rs : List COrT) (n : Nat), lowOrTs (rs ++ [.mk op t]) n =
    ((lowOrTs rs n).1 ++ [.mk op (lowCond t (lowOrTs rs n).2).1], (lowCond t (lowOrTs rs n).2).2)
  | [], n => by simp [lowOrTs]
  | .mk o u :: rs, n => by simp [lowOrTs, lowOrTs_snoc op t rs]

theorem lowAndTs_snoc (op : Str) (t : COr) : ∀ (rs : List CAndT) (n : Nat), lowAndTs (rs ++ [.mk op t]) n =
    ((lowAndTs rs n).1 ++ [.mk op (lowOr t (lowAndTs rs n).2).1], (lowOr t (lowAndTs rs n).2).2)
  | [], n => by simp [lowAndTs]
  | .mk o u :: rs, n => by simp [lowAndTs, lowAndTs_snoc op t rs]

theorem low_cMul (e : CMul) (op : Str) (t : CVal) (n : Nat) : lowMul (cMul e op t) n =
    (eMul (lowMul e n).1 op (lowVal t (lowMul e n).2).1, (lowVal t (lowMul e n).2).2) := by
  obtain ⟨cs, a, rs⟩ := e
  simp [cMul, lowMul, lowMulTs_snoc, eMul]

theorem low_cAdd (e : CAdd) (op : Str) (t : CMul) (n : Nat) : lowAdd (cAdd e op t) n =
    (eAdd (lowAdd e n).1 op (lowMul t (lowAdd e n).2).1, (lowMul t (lowAdd e n).2).2) := by
  obtain ⟨cs, a, rs⟩ := e
  simp [cAdd, lowAdd, lowAddTs_snoc, eAdd]

theorem low_cOr (e : COr) (op : Str) (t : CCond) (n : Nat) : lowOr (cOr e op t) n =
    (eOr (lowOr e n).1 op (lowCond t (lowOr e n).2).1, (lowCond t (lowOr e n).2).2) := by
  obtain ⟨cs, a, rs⟩ := e
  simp [cOr, lowOr, lowOrTs_snoc, eOr]

theorem low_cAnd (e : CAnd) (op : Str) (t : COr) (n : Nat) : lowAnd (cAnd e op t) n =
    (eAnd (lowAnd e n).1 op (lowOr t (lowAnd e n).2).1, (lowOr t (lowAnd e n).2).2) := by
  obtain ⟨cs, a, rs⟩ := e
  simp [cAnd, lowAnd, lowAndTs_snoc, eAnd]

theorem tree_low : ∀ (b : Bin CMember) (n : Nat), b.tree.low n = ((b.operands n).1.low, (b.operands n).2)
  | .leaf a, n => rfl
  | .mul op l r, n => by
    show (Lev.mul (lowMul _ n).1, (lowMul _ n).2) = _
    simp only [low_cMul, low_mul, low_val, tree_low l, tree_low r, Bin.operands, Bin.low]
  | .add op l r, n => by
    show (Lev.add (lowAdd _ n).1, (lowAdd _ n).2) = _
    simp only [low_cAdd, low_mul, low_add, tree_low l, tree_low r, Bin.operands, Bin.low]
  | .cmp op l r, n => by
    show (Lev.cond (lowCond _ n).1, (lowCond _ n).2) = _
    simp only [lowCond, low_add, tree_low l, tree_low r, Bin.operands, Bin.low]
  | .not e, n => by
    show (Lev.cond (lowCond _ n).1, (lowCond _ n).2) = _
    simp only [lowCond, low_cond, tree_low e, Bin.operands, Bin.low]
  | .or op l r, n => by
    show (Lev.or (lowOr _ n).1, (lowOr _ n).2) = _
    simp only [low_cOr, low_or, low_cond, tree_low l, tree_low r, Bin.operands, Bin.low]
  | .and op l r, n => by
    show (Lev.and (lowAnd _ n).1, (lowAnd _ n).2) = _
    simp only [low_cAnd, low_or, low_and, tree_low l, tree_low r, Bin.operands, Bin.low]

/-! ## Evaluation -/

section
variable {F S : Type} [FloatOps F]

/-- How far a chain of ANDs or ORs has come: the answer is known, or the next operand is needed
(with the answer if there is none). -/
inductive Sofar (F : Type) where
  | known (v : V F)
  | open_ (v : V F)

def Sofar.val : Sofar F → V F
  | .known v => v
  | .open_ v => v

/-- What an expression does: as an operand, as the beginning of a chain of ORs, and as the
beginning of a chain of ANDs. -/
structure Sem (F S : Type) where
  val : Prog F S (V F)
  ors : Prog F S (Sofar F)
  ands : Prog F S (Sofar F)

variable (H : Host F S) (s : Nat)

/-- The first operand of OR is the answer if it is true. -/
def firstOr (v : V F) : Prog F S (Sofar F) := do
  let b ← H.truth v s
  if b then pure (.known v) else pure (.open_ v)
/-- The first operand of AND decides if it is false. -/
def firstAnd (v : V F) : Prog F S (Sofar F) := do
  let b ← H.truth v s
  if b then pure (.open_ v) else pure (.known (.bool false))

/-- `l OR r`, `l || r`: the right operand is evaluated only if the left one is false. -/
def thenOr (op : Str) (r : Prog F S (V F)) : Sofar F → Prog F S (Sofar F)
  | .known v => pure (.known v)
  | .open_ _ => do
    let v ← r
    let b ← H.truth v s
    if b then pure (.known (if op = bs "||" then v else .bool true)) else pure (.open_ v)
/-- `l AND r`, `l && r`: the right operand is evaluated only if the left one is true. -/
def thenAnd (op : Str) (r : Prog F S (V F)) : Sofar F → Prog F S (Sofar F)
  | .known v => pure (.known v)
  | .open_ _ => do
    let v ← r
    let b ← H.truth v s
    if b then pure (.open_ (if op = bs "&&" then v else .bool true)) else pure (.known (.bool false))

def Sem.operand (p : Prog F S (V F)) : Sem F S := ⟨p, p >>= firstOr H s, p >>= firstAnd H s⟩
def Sem.orChain (p : Prog F S (Sofar F)) : Sem F S :=
  ⟨p >>= fun c => pure c.val, p, (p >>= fun c => pure c.val) >>= firstAnd H s⟩
def Sem.andChain (p : Prog F S (Sofar F)) : Sem F S :=
  ⟨p >>= fun c => pure c.val, (p >>= fun c => pure c.val) >>= firstOr H s, p⟩

def arithOf (op : Str) (a b : V F) : Prog F S (V F) :=
  if op = bs "*" then H.arith .mul a b s
  else if op = bs "/" then H.arith .div a b s
  else if op = bs "+" then H.arith .add a b s
  else H.arith .sub a b s

/-- Operands from left to right, then the operator. -/
def Bin.sem : Bin Member → Sem F S
  | .leaf m => .operand H s (call (.member m s))
  | .mul op l r => .operand H s (do
    let a ← l.sem.val
    let b ← r.sem.val
    arithOf H s op a b)
  | .add op l r => .operand H s (do
    let a ← l.sem.val
    let b ← r.sem.val
    arithOf H s op a b)
  | .cmp op l r => .operand H s (do
    let a ← l.sem.val
    let b ← r.sem.val
    let c ← relP H op a b s
    pure (.bool c))
  | .not e => .operand H s (do
    let a ← e.sem.val
    let b ← H.truth a s
    pure (.bool (!b)))
  | .or op l r => .orChain H s (l.sem.ors >>= thenOr H s op r.sem.val)
  | .and op l r => .andChain H s (l.sem.ands >>= thenAnd H s op r.sem.val)

/-- Two programs that do the same. -/
def Same {α : Type} (p q : Prog F S α) : Prop := ∀ st a st', Runs H p st a st' ↔ Runs H q st a st'

variable {H s}

theorem Same.rfl {α : Type} {p : Prog F S α} : Same H p p := fun _ _ _ => Iff.rfl
theorem Same.symm {α : Type} {p q : Prog F S α} (h : Same H p q) : Same H q p := fun st a st' => (h st a st').symm
theorem Same.trans {α : Type} {p q r : Prog F S α} (h : Same H p q) (h' : Same H q r) : Same H p r :=
  fun st a st' => (h st a st').trans (h' st a st')
theorem Same.bind {α β : Type} {p q : Prog F S α} {f g : α → Prog F S β} (h : Same H p q)
    (h' : ∀ a, Same H (f a) (g a)) : Same H (p >>= f) (q >>= g) := by
  intro st a st'
  simp only [runs_bind]
  constructor
  · rintro ⟨b, s1, h1, h2⟩; exact ⟨b, s1, (h _ _ _).1 h1, (h' _ _ _ _).1 h2⟩
  · rintro ⟨b, s1, h1, h2⟩; exact ⟨b, s1, (h _ _ _).2 h1, (h' _ _ _ _).2 h2⟩
theorem Same.assoc {α β γ : Type} {p : Prog F S α} {f : α → Prog F S β} {g : β → Prog F S γ} :
    Same H (p >>= f >>= g) (p >>= fun a => f a >>= g) := by
  intro st a st'
  simp only [runs_bind]
  constructor
  · rintro ⟨b, s1, ⟨c, s2, h1, h2⟩, h3⟩; exact ⟨c, s2, h1, b, s1, h2, h3⟩
  · rintro ⟨c, s2, h1, b, s1, h2, h3⟩; exact ⟨b, s1, ⟨c, s2, h1, h2⟩, h3⟩
theorem Same.bindPure {α : Type} {p : Prog F S α} : Same H (p >>= fun x => pure x) p := fun _ _ _ => runs_bind_pure
theorem Same.call {c : Call F} : Same H (Vql.call c) (body H c) := fun _ _ _ => runs_call

theorem Same.fold {α β : Type} {f : β → α → Prog F S β} {x : α} : ∀ (l : List α) (b : β),
    Same H (foldP f b (l ++ [x])) (foldP f b l >>= fun b => f b x)
  | [], b => by
    show Same H (f b x >>= fun b => pure b) (f b x)
    exact .bindPure
  | a :: l, b => by
    show Same H (f b a >>= fun b' => foldP f b' (l ++ [x])) (f b a >>= (fun b' => foldP f b' l) >>= fun b => f b x)
    exact (Same.bind .rfl fun b' => Same.fold l b').trans Same.assoc.symm

/-- What the tree does at its own level. -/
def Lev.run (s : Nat) : Lev → Prog F S (V F)
  | .mem e => Vql.call (.member e s)
  | .mul e => Vql.call (.mul e s)
  | .add e => Vql.call (.add e s)
  | .cond e => Vql.call (.cond e s)
  | .or e => Vql.call (.or e s)
  | .and e => Vql.call (.and e s)

theorem memOf (v : Value) : Same H (Vql.call (.member (.mk v []) s)) (Vql.call (.value v s)) :=
  Same.call.trans (show Same H (Vql.call (.value v s) >>= fun v => pure v) _ from .bindPure)
theorem mulOf (e : Member) : Same H (Vql.call (.mul (.mk e []) s)) (Vql.call (.member e s)) :=
  Same.call.trans (show Same H (Vql.call (.member e s) >>= fun v => pure v) _ from .bindPure)
theorem addOf (e : MulE) : Same H (Vql.call (.add (.mk e []) s)) (Vql.call (.mul e s)) :=
  Same.call.trans (show Same H (Vql.call (.mul e s) >>= fun v => pure v) _ from .bindPure)
theorem condOf (e : AddE) : Same H (Vql.call (.cond (.cmp e none) s)) (Vql.call (.add e s)) :=
  Same.call.trans .rfl
theorem orOf (e : Cond) : Same H (Vql.call (.or (.mk e []) s)) (Vql.call (.cond e s)) :=
  Same.call.trans (show Same H (Vql.call (.cond e s) >>= fun v => pure v) _ from .bindPure)
theorem andOf (e : OrE) : Same H (Vql.call (.and (.mk e []) s)) (Vql.call (.or e s)) :=
  Same.call.trans (show Same H (Vql.call (.or e s) >>= fun v => pure v) _ from .bindPure)
theorem commaOf (e : AndE) : Same H (Vql.call (.comma (.mk e []) s)) (Vql.call (.and e s)) :=
  Same.call.trans (show Same H (Vql.call (.and e s) >>= fun v => pure v) _ from .bindPure)

theorem run_and (x : Lev) : Same H (Vql.call (.and x.and_ s)) (x.run s) := by
  cases x with
  | mem e => exact (andOf _).trans <| (orOf _).trans <| (condOf _).trans <| (addOf _).trans (mulOf _)
  | mul e => exact (andOf _).trans <| (orOf _).trans <| (condOf _).trans (addOf _)
  | add e => exact (andOf _).trans <| (orOf _).trans (condOf _)
  | cond e => exact (andOf _).trans (orOf _)
  | or e => exact andOf _
  | and e => exact .rfl

theorem run_sub (x : Lev) : Same H (Vql.call (.value x.sub s)) (x.run s) :=
  (Same.call.trans .rfl).trans <| (commaOf _).trans (run_and x)

theorem run_val (x : Lev) : Same H (Vql.call (.value x.val s)) (x.run s) := by
  rcases x with ⟨⟨v, _ | ⟨r, rs⟩⟩⟩ | e | e | e | e | e
  · exact (memOf v).symm
  all_goals exact run_sub _

theorem run_memOf (x : Lev) : Same H (Vql.call (.member (.mk x.sub []) s)) (x.run s) := (memOf _).trans (run_sub x)

theorem run_mul (x : Lev) : Same H (Vql.call (.mul x.mul_ s)) (x.run s) := by
  cases x <;> first | exact .rfl | exact mulOf _ | exact (mulOf _).trans (run_memOf _)

theorem run_add (x : Lev) : Same H (Vql.call (.add x.add_ s)) (x.run s) := by
  cases x <;> first | exact .rfl | exact addOf _ | exact (addOf _).trans (mulOf _) |
    exact (addOf _).trans ((mulOf _).trans (run_memOf _))

theorem run_cond (x : Lev) : Same H (Vql.call (.cond x.cond_ s)) (x.run s) := by
  cases x <;> first | exact .rfl | exact condOf _ | exact (condOf _).trans (addOf _) |
    exact (condOf _).trans ((addOf _).trans (mulOf _)) |
    exact (condOf _).trans ((addOf _).trans ((mulOf _).trans (run_memOf _)))

theorem run_or (x : Lev) : Same H (Vql.call (.or x.or_ s)) (x.run s) := by
  cases x <;> first | exact .rfl | exact orOf _ | exact (orOf _).trans (condOf _) |
    exact (orOf _).trans ((condOf _).trans (addOf _)) |
    exact (orOf _).trans ((condOf _).trans ((addOf _).trans (mulOf _))) |
    exact (orOf _).trans ((condOf _).trans ((addOf _).trans ((mulOf _).trans (run_memOf _))))

theorem call_eMul (e : MulE) {op : Str} (ho : op ∈ [bs "*", bs "/"]) (t : Value) :
    Same H (Vql.call (.mul (eMul e op t) s))
      (Vql.call (.mul e s) >>= fun a => Vql.call (.value t s) >>= fun b => arithOf H s op a b) := by
  obtain ⟨l, rs⟩ := e
  refine Same.call.trans ?_
  show Same H (Vql.call (.member l s) >>= fun v => foldP (mulStepP H s) v (rs ++ [.mk op t])) _
  refine (Same.bind .rfl fun v => Same.fold rs v).trans ?_
  refine Same.assoc.symm.trans (Same.bind (Same.call (c := .mul (.mk l rs) s)).symm fun a => ?_)
  show Same H (Vql.call (.value t s) >>= fun v => _) _
  refine .bind .rfl fun b => ?_
  simp only [List.mem_cons, List.not_mem_nil, or_false] at ho
  rcases ho with rfl | rfl <;> exact .rfl

theorem call_eAdd (e : AddE) {op : Str} (ho : op ∈ [bs "+", bs "-"]) (t : MulE) :
    Same H (Vql.call (.add (eAdd e op t) s))
      (Vql.call (.add e s) >>= fun a => Vql.call (.mul t s) >>= fun b => arithOf H s op a b) := by
  obtain ⟨l, rs⟩ := e
  refine Same.call.trans ?_
  show Same H (Vql.call (.mul l s) >>= fun v => foldP (addStepP H s) v (rs ++ [.mk op t])) _
  refine (Same.bind .rfl fun v => Same.fold rs v).trans ?_
  refine Same.assoc.symm.trans (Same.bind (Same.call (c := .add (.mk l rs) s)).symm fun a => ?_)
  show Same H (Vql.call (.mul t s) >>= fun v => _) _
  refine .bind .rfl fun b => ?_
  simp only [List.mem_cons, List.not_mem_nil, or_false] at ho
  rcases ho with rfl | rfl <;> exact .rfl

/-! ### Chains -/

def orsP (H : Host F S) (s : Nat) : Sofar F → List OrT → Prog F S (Sofar F) :=
  foldP fun c t => match t with | .mk op t => thenOr H s op (Vql.call (.cond t s)) c
def andsP (H : Host F S) (s : Nat) : Sofar F → List AndT → Prog F S (Sofar F) :=
  foldP fun c t => match t with | .mk op t => thenAnd H s op (Vql.call (.or t s)) c

def orC (H : Host F S) (s : Nat) : OrE → Prog F S (Sofar F)
  | .mk l rs => Vql.call (.cond l s) >>= firstOr H s >>= fun c => orsP H s c rs
def andC (H : Host F S) (s : Nat) : AndE → Prog F S (Sofar F)
  | .mk l rs => Vql.call (.or l s) >>= firstAnd H s >>= fun c => andsP H s c rs

theorem ors_known (v : V F) : ∀ rs : List OrT, orsP H s (.known v) rs = pure (.known v)
  | [] => rfl
  | .mk op t :: rs => ors_known v rs
theorem ands_known (v : V F) : ∀ rs : List AndT, andsP H s (.known v) rs = pure (.known v)
  | [] => rfl
  | .mk op t :: rs => ands_known v rs

theorem orLoop_same : ∀ (rs : List OrT) (v : V F),
    Same H (orLoopP H s v rs) (orsP H s (.open_ v) rs >>= fun c => pure c.val)
  | [], v => .rfl
  | .mk op t :: rs, v => by
    show Same H (Vql.call (.cond t s) >>= fun v => H.truth v s >>= fun b => if b = true then _ else orLoopP H s v rs)
      (thenOr H s op (Vql.call (.cond t s)) (.open_ v) >>= (fun c => orsP H s c rs) >>= fun c => pure c.val)
    refine Same.trans ?_ Same.assoc.symm
    refine Same.trans ?_ (Same.assoc.symm)
    refine .bind .rfl fun w => ?_
    refine Same.trans ?_ (Same.assoc.symm)
    refine .bind .rfl fun b => ?_
    cases b
    · exact orLoop_same rs w
    · show Same H (pure _) (orsP H s (.known _) rs >>= fun c => pure c.val)
      rw [ors_known]
      exact .rfl

theorem andLoop_same : ∀ (rs : List AndT) (v : V F),
    Same H (andLoopP H s v rs) (andsP H s (.open_ v) rs >>= fun c => pure c.val)
  | [], v => .rfl
  | .mk op t :: rs, v => by
    show Same H (Vql.call (.or t s) >>= fun v => H.truth v s >>= fun b => if b = false then _ else
        andLoopP H s (if op = bs "&&" then v else .bool true) rs)
      (thenAnd H s op (Vql.call (.or t s)) (.open_ v) >>= (fun c => andsP H s c rs) >>= fun c => pure c.val)
    refine Same.trans ?_ Same.assoc.symm
    refine Same.trans ?_ (Same.assoc.symm)
    refine .bind .rfl fun w => ?_
    refine Same.trans ?_ (Same.assoc.symm)
    refine .bind .rfl fun b => ?_
    cases b
    · show Same H (pure _) (andsP H s (.known _) rs >>= fun c => pure c.val)
      rw [ands_known]
      exact .rfl
    · exact andLoop_same rs _

theorem call_or (l : Cond) (t : OrT) (rs : List OrT) :
    Same H (Vql.call (.or (.mk l (t :: rs)) s)) (orC H s (.mk l (t :: rs)) >>= fun c => pure c.val) := by
  refine Same.call.trans ?_
  show Same H (Vql.call (.cond l s) >>= fun v => H.truth v s >>= fun b => if b = true then pure v else
    orLoopP H s v (t :: rs)) (Vql.call (.cond l s) >>= firstOr H s >>= (fun c => orsP H s c (t :: rs)) >>= _)
  refine Same.trans ?_ Same.assoc.symm
  refine Same.trans ?_ Same.assoc.symm
  refine .bind .rfl fun w => ?_
  refine Same.trans ?_ Same.assoc.symm
  refine .bind .rfl fun b => ?_
  cases b
  · exact orLoop_same _ w
  · show Same H (pure _) (orsP H s (.known _) (t :: rs) >>= fun c => pure c.val)
    rw [ors_known]
    exact .rfl

theorem call_and (l : OrE) (t : AndT) (rs : List AndT) :
    Same H (Vql.call (.and (.mk l (t :: rs)) s)) (andC H s (.mk l (t :: rs)) >>= fun c => pure c.val) := by
  refine Same.call.trans ?_
  show Same H (Vql.call (.or l s) >>= fun v => H.truth v s >>= fun b => if b = false then pure _ else
    andLoopP H s v (t :: rs)) (Vql.call (.or l s) >>= firstAnd H s >>= (fun c => andsP H s c (t :: rs)) >>= _)
  refine Same.trans ?_ Same.assoc.symm
  refine Same.trans ?_ Same.assoc.symm
  refine .bind .rfl fun w => ?_
  refine Same.trans ?_ Same.assoc.symm
  refine .bind .rfl fun b => ?_
  cases b
  · show Same H (pure _) (andsP H s (.known _) (t :: rs) >>= fun c => pure c.val)
    rw [ands_known]
    exact .rfl
  · exact andLoop_same _ w

theorem orC_snoc (e : OrE) (op : Str) (t : Cond) :
    Same H (orC H s (eOr e op t)) (orC H s e >>= thenOr H s op (Vql.call (.cond t s))) := by
  obtain ⟨l, rs⟩ := e
  refine Same.trans ?_ Same.assoc.symm
  exact .bind .rfl fun c => Same.fold rs c

theorem andC_snoc (e : AndE) (op : Str) (t : OrE) :
    Same H (andC H s (eAnd e op t)) (andC H s e >>= thenAnd H s op (Vql.call (.or t s))) := by
  obtain ⟨l, rs⟩ := e
  refine Same.trans ?_ Same.assoc.symm
  exact .bind .rfl fun c => Same.fold rs c

theorem call_eOr (e : OrE) (op : Str) (t : Cond) :
    Same H (Vql.call (.or (eOr e op t) s))
      (orC H s e >>= thenOr H s op (Vql.call (.cond t s)) >>= fun c => pure c.val) := by
  refine Same.trans ?_ (.bind (orC_snoc e op t) fun _ => .rfl)
  obtain ⟨l, _ | ⟨r, rs⟩⟩ := e
  · exact call_or _ _ _
  · exact call_or (H := H) (s := s) l r (rs ++ [.mk op t])

theorem call_eAnd (e : AndE) (op : Str) (t : OrE) :
    Same H (Vql.call (.and (eAnd e op t) s))
      (andC H s e >>= thenAnd H s op (Vql.call (.or t s)) >>= fun c => pure c.val) := by
  refine Same.trans ?_ (.bind (andC_snoc e op t) fun _ => .rfl)
  obtain ⟨l, _ | ⟨r, rs⟩⟩ := e
  · exact call_and _ _ _
  · exact call_and (H := H) (s := s) l r (rs ++ [.mk op t])

theorem thenOr_same {op : Str} {p q : Prog F S (V F)} (h : Same H p q) (c : Sofar F) :
    Same H (thenOr H s op p c) (thenOr H s op q c) := by
  cases c with
  | known v => exact .rfl
  | open_ v => exact .bind h fun _ => .rfl
theorem thenAnd_same {op : Str} {p q : Prog F S (V F)} (h : Same H p q) (c : Sofar F) :
    Same H (thenAnd H s op p c) (thenAnd H s op q c) := by
  cases c with
  | known v => exact .rfl
  | open_ v => exact .bind h fun _ => .rfl

/-- A tree that is no chain of ORs, as the beginning of one. -/
theorem orC_operand (e : Cond) : Same H (orC H s (.mk e [])) (Vql.call (.or (.mk e []) s) >>= firstOr H s) :=
  Same.trans .bindPure (.bind (orOf e).symm fun _ => .rfl)
theorem andC_operand (e : OrE) : Same H (andC H s (.mk e [])) (Vql.call (.and (.mk e []) s) >>= firstAnd H s) :=
  Same.trans .bindPure (.bind (andOf e).symm fun _ => .rfl)

def Lev.isOr : Lev → Bool
  | .or _ => true
  | _ => false
def Lev.isAnd : Lev → Bool
  | .and _ => true
  | _ => false

theorem orC_of {x : Lev} (h : x.isOr = false) : Same H (orC H s x.or_) (x.run s >>= firstOr H s) := by
  refine Same.trans ?_ (.bind (run_or x) fun _ => .rfl)
  cases x <;> first | exact orC_operand _ | simp [Lev.isOr] at h
theorem andC_of {x : Lev} (h : x.isAnd = false) : Same H (andC H s x.and_) (x.run s >>= firstAnd H s) := by
  refine Same.trans ?_ (.bind (run_and x) fun _ => .rfl)
  cases x <;> first | exact andC_operand _ | simp [Lev.isAnd] at h

/-- Operators that the grammar knows. -/
def Bin.Known : Bin Member → Prop
  | .leaf _ => True
  | .mul op l r => op ∈ [bs "*", bs "/"] ∧ l.Known ∧ r.Known
  | .add op l r => op ∈ [bs "+", bs "-"] ∧ l.Known ∧ r.Known
  | .cmp _ l r => l.Known ∧ r.Known
  | .not e => e.Known
  | .or _ l r => l.Known ∧ r.Known
  | .and _ l r => l.Known ∧ r.Known

theorem operand_does {b : Bin Member} {p : Prog F S (V F)} (h : Same H (b.low.run s) p)
    (ho : b.low.isOr = false) (ha : b.low.isAnd = false) :
    Same H (b.low.run s) p ∧ Same H (orC H s b.low.or_) (p >>= firstOr H s) ∧
      Same H (andC H s b.low.and_) (p >>= firstAnd H s) :=
  ⟨h, (orC_of ho).trans (.bind h fun _ => .rfl), (andC_of ha).trans (.bind h fun _ => .rfl)⟩

/-- The tree does what the table says. -/
theorem does : ∀ b : Bin Member, b.Known → Same H (b.low.run s) (b.sem H s).val ∧
    Same H (orC H s b.low.or_) (b.sem H s).ors ∧ Same H (andC H s b.low.and_) (b.sem H s).ands
  | .leaf m, _ => operand_does (b := .leaf m) .rfl rfl rfl
  | .mul op l r, ⟨ho, hl, hr⟩ => by
    refine operand_does (b := .mul op l r) ?_ rfl rfl
    exact (call_eMul _ ho _).trans (.bind ((run_mul _).trans (does l hl).1) fun a =>
      .bind ((run_val _).trans (does r hr).1) fun b => .rfl)
  | .add op l r, ⟨ho, hl, hr⟩ => by
    refine operand_does (b := .add op l r) ?_ rfl rfl
    exact (call_eAdd _ ho _).trans (.bind ((run_add _).trans (does l hl).1) fun a =>
      .bind ((run_mul _).trans (does r hr).1) fun b => .rfl)
  | .cmp op l r, ⟨hl, hr⟩ => by
    refine operand_does (b := .cmp op l r) ?_ rfl rfl
    exact Same.call.trans (.bind ((run_add _).trans (does l hl).1) fun a =>
      .bind ((run_add _).trans (does r hr).1) fun b => .rfl)
  | .not e, h => by
    refine operand_does (b := .not e) ?_ rfl rfl
    exact Same.call.trans (.bind ((run_cond _).trans (does e h).1) fun a => .rfl)
  | .or op l r, ⟨hl, hr⟩ => by
    have h1 : Same H (orC H s l.low.or_ >>= thenOr H s op (Vql.call (.cond r.low.cond_ s)))
        (((Bin.or op l r).sem H s).ors) :=
      .bind (does l hl).2.1 fun c => thenOr_same ((run_cond _).trans (does r hr).1) c
    have h2 : Same H ((Bin.or op l r).low.run s) (((Bin.or op l r).sem H s).val) :=
      (call_eOr _ op _).trans (.bind h1 fun _ => .rfl)
    exact ⟨h2, (orC_snoc _ op _).trans h1, (andC_of rfl).trans (.bind h2 fun _ => .rfl)⟩
  | .and op l r, ⟨hl, hr⟩ => by
    have h1 : Same H (andC H s l.low.and_ >>= thenAnd H s op (Vql.call (.or r.low.or_ s)))
        (((Bin.and op l r).sem H s).ands) :=
      .bind (does l hl).2.2 fun c => thenAnd_same ((run_or _).trans (does r hr).1) c
    have h2 : Same H ((Bin.and op l r).low.run s) (((Bin.and op l r).sem H s).val) :=
      (call_eAnd _ op _).trans (.bind h1 fun _ => .rfl)
    exact ⟨h2, (orC_of rfl).trans (.bind h2 fun _ => .rfl), (andC_snoc _ op _).trans h1⟩

/-! ### Two operands at a time -/

/-- Asking for the truth of a value a second time gives the same answer and changes nothing. -/
def Steady (H : Host F S) : Prop :=
  (∀ v s st b st', Runs H (H.truth v s) st b st' → Runs H (H.truth v s) st' b st') ∧
  ∀ x s st, Runs H (H.truth (.bool x) s) st x st

/-- The operators with two operands each. -/
def Bin.eval (H : Host F S) (s : Nat) : Bin Member → Prog F S (V F)
  | .leaf m => Vql.call (.member m s)
  | .mul op l r => do
    let a ← l.eval H s
    let b ← r.eval H s
    arithOf H s op a b
  | .add op l r => do
    let a ← l.eval H s
    let b ← r.eval H s
    arithOf H s op a b
  | .cmp op l r => do
    let a ← l.eval H s
    let b ← r.eval H s
    let c ← relP H op a b s
    pure (.bool c)
  | .not e => do
    let a ← e.eval H s
    let b ← H.truth a s
    pure (.bool (!b))
  | .or op l r => do
    let a ← l.eval H s
    let x ← H.truth a s
    if x then pure a
    else do
      let b ← r.eval H s
      let y ← H.truth b s
      pure (if y = true ∧ op ≠ bs "||" then .bool true else b)
  | .and op l r => do
    let a ← l.eval H s
    let x ← H.truth a s
    if x then do
      let b ← r.eval H s
      let y ← H.truth b s
      pure (if y then (if op = bs "&&" then b else .bool true) else .bool false)
    else pure (.bool false)

theorem or_twice (hS : Steady H) {op : Str} {p r : Prog F S (V F)} :
    Same H (p >>= firstOr H s >>= thenOr H s op r)
      ((p >>= firstOr H s >>= thenOr H s op r >>= fun c => pure c.val) >>= firstOr H s) := by
  have key : ∀ c st c' st', Runs H (firstOr H s c >>= thenOr H s op r) st c' st' →
      Runs H (firstOr H s c'.val) st' c' st' := by
    intro c st c' st' h
    obtain ⟨d, s1, h1, h2⟩ := runs_bind.1 h
    obtain ⟨x, s2, h3, h4⟩ := runs_bind.1 h1
    cases x
    · simp only [Bool.false_eq_true, if_false] at h4
      obtain ⟨rfl, rfl⟩ := runs_pure.1 h4
      obtain ⟨v, s3, h5, h6⟩ := runs_bind.1 h2
      obtain ⟨y, s4, h7, h8⟩ := runs_bind.1 h6
      cases y
      · simp only [Bool.false_eq_true, if_false] at h8
        obtain ⟨rfl, rfl⟩ := runs_pure.1 h8
        exact runs_bind.2 ⟨false, _, hS.1 _ _ _ _ _ h7, runs_pure.2 ⟨rfl, rfl⟩⟩
      · simp only [if_true] at h8
        obtain ⟨rfl, rfl⟩ := runs_pure.1 h8
        refine runs_bind.2 ⟨true, _, ?_, runs_pure.2 ⟨rfl, rfl⟩⟩
        show Runs H (H.truth (if op = bs "||" then v else .bool true) s) _ _ _
        split
        · exact hS.1 _ _ _ _ _ h7
        · exact hS.2 _ _ _
    · simp only [if_true] at h4
      obtain ⟨rfl, rfl⟩ := runs_pure.1 h4
      obtain ⟨rfl, rfl⟩ := runs_pure.1 h2
      exact runs_bind.2 ⟨true, _, hS.1 _ _ _ _ _ h3, runs_pure.2 ⟨rfl, rfl⟩⟩
  intro st c st'
  constructor
  · intro h
    have h' := Same.assoc _ _ _ |>.1 h
    obtain ⟨v, s1, h1, h2⟩ := runs_bind.1 h'
    exact runs_bind.2 ⟨_, _, runs_bind.2 ⟨_, _, h, runs_pure.2 ⟨rfl, rfl⟩⟩, key _ _ _ _ h2⟩
  · intro h
    obtain ⟨v, s1, h1, h2⟩ := runs_bind.1 h
    obtain ⟨c', s2, h3, h4⟩ := runs_bind.1 h1
    obtain ⟨rfl, rfl⟩ := runs_pure.1 h4
    have h' := Same.assoc _ _ _ |>.1 h3
    obtain ⟨v, s3, h5, h6⟩ := runs_bind.1 h'
    obtain ⟨rfl, rfl⟩ := (key _ _ _ _ h6).det h2
    exact h3

theorem and_twice (hS : Steady H) {op : Str} {p r : Prog F S (V F)} :
    Same H (p >>= firstAnd H s >>= thenAnd H s op r)
      ((p >>= firstAnd H s >>= thenAnd H s op r >>= fun c => pure c.val) >>= firstAnd H s) := by
  have key : ∀ c st c' st', Runs H (firstAnd H s c >>= thenAnd H s op r) st c' st' →
      Runs H (firstAnd H s c'.val) st' c' st' := by
    intro c st c' st' h
    obtain ⟨d, s1, h1, h2⟩ := runs_bind.1 h
    obtain ⟨x, s2, h3, h4⟩ := runs_bind.1 h1
    cases x
    · simp only [Bool.false_eq_true, if_false] at h4
      obtain ⟨rfl, rfl⟩ := runs_pure.1 h4
      obtain ⟨rfl, rfl⟩ := runs_pure.1 h2
      exact runs_bind.2 ⟨false, _, hS.2 _ _ _, runs_pure.2 ⟨rfl, rfl⟩⟩
    · simp only [if_true] at h4
      obtain ⟨rfl, rfl⟩ := runs_pure.1 h4
      obtain ⟨v, s3, h5, h6⟩ := runs_bind.1 h2
      obtain ⟨y, s4, h7, h8⟩ := runs_bind.1 h6
      cases y
      · simp only [Bool.false_eq_true, if_false] at h8
        obtain ⟨rfl, rfl⟩ := runs_pure.1 h8
        exact runs_bind.2 ⟨false, _, hS.2 _ _ _, runs_pure.2 ⟨rfl, rfl⟩⟩
      · simp only [if_true] at h8
        obtain ⟨rfl, rfl⟩ := runs_pure.1 h8
        refine runs_bind.2 ⟨true, _, ?_, runs_pure.2 ⟨rfl, rfl⟩⟩
        show Runs H (H.truth (if op = bs "&&" then v else .bool true) s) _ _ _
        split
        · exact hS.1 _ _ _ _ _ h7
        · exact hS.2 _ _ _
  intro st c st'
  constructor
  · intro h
    have h' := Same.assoc _ _ _ |>.1 h
    obtain ⟨v, s1, h1, h2⟩ := runs_bind.1 h'
    exact runs_bind.2 ⟨_, _, runs_bind.2 ⟨_, _, h, runs_pure.2 ⟨rfl, rfl⟩⟩, key _ _ _ _ h2⟩
  · intro h
    obtain ⟨v, s1, h1, h2⟩ := runs_bind.1 h
    obtain ⟨c', s2, h3, h4⟩ := runs_bind.1 h1
    obtain ⟨rfl, rfl⟩ := runs_pure.1 h4
    have h' := Same.assoc _ _ _ |>.1 h3
    obtain ⟨v, s3, h5, h6⟩ := runs_bind.1 h'
    obtain ⟨rfl, rfl⟩ := (key _ _ _ _ h6).det h2
    exact h3

theorem or_once {op : Str} {p r : Prog F S (V F)} :
    Same H (p >>= firstOr H s >>= thenOr H s op r >>= fun c => pure c.val) (do
      let a ← p
      let x ← H.truth a s
      if x then pure a
      else do
        let b ← r
        let y ← H.truth b s
        pure (if y = true ∧ op ≠ bs "||" then .bool true else b)) := by
  refine Same.assoc.trans (Same.assoc.trans (.bind .rfl fun a => Same.assoc.trans (.bind .rfl fun x => ?_)))
  cases x
  · show Same H (thenOr H s op r (.open_ a) >>= fun c => pure c.val) _
    refine Same.assoc.trans (.bind .rfl fun b => Same.assoc.trans (.bind .rfl fun y => ?_))
    cases y
    · exact .rfl
    · show Same H (pure _) (pure _)
      by_cases ho : op = bs "||"
      · rw [if_pos ho, if_neg (by simp [ho])]
        exact .rfl
      · rw [if_neg ho, if_pos ⟨rfl, ho⟩]
        exact .rfl
  · exact .rfl

theorem and_once {op : Str} {p r : Prog F S (V F)} :
    Same H (p >>= firstAnd H s >>= thenAnd H s op r >>= fun c => pure c.val) (do
      let a ← p
      let x ← H.truth a s
      if x then do
        let b ← r
        let y ← H.truth b s
        pure (if y then (if op = bs "&&" then b else .bool true) else .bool false)
      else pure (.bool false)) := by
  refine Same.assoc.trans (Same.assoc.trans (.bind .rfl fun a => Same.assoc.trans (.bind .rfl fun x => ?_)))
  cases x
  · exact .rfl
  · show Same H (thenAnd H s op r (.open_ a) >>= fun c => pure c.val) _
    refine Same.assoc.trans (.bind .rfl fun b => Same.assoc.trans (.bind .rfl fun y => ?_))
    cases y <;> exact .rfl

theorem operand_pairs {p q : Prog F S (V F)} (h : Same H p q) :
    Same H (Sem.operand H s p).val q ∧ Same H (Sem.operand H s p).ors (q >>= firstOr H s) ∧
      Same H (Sem.operand H s p).ands (q >>= firstAnd H s) :=
  ⟨h, .bind h fun _ => .rfl, .bind h fun _ => .rfl⟩

theorem sem_eval (hS : Steady H) : ∀ b : Bin Member, Same H (b.sem H s).val (b.eval H s) ∧
    Same H (b.sem H s).ors (b.eval H s >>= firstOr H s) ∧ Same H (b.sem H s).ands (b.eval H s >>= firstAnd H s)
  | .leaf m => operand_pairs .rfl
  | .mul op l r => operand_pairs (.bind (sem_eval hS l).1 fun a => .bind (sem_eval hS r).1 fun b => .rfl)
  | .add op l r => operand_pairs (.bind (sem_eval hS l).1 fun a => .bind (sem_eval hS r).1 fun b => .rfl)
  | .cmp op l r => operand_pairs (.bind (sem_eval hS l).1 fun a => .bind (sem_eval hS r).1 fun b => .rfl)
  | .not e => operand_pairs (.bind (sem_eval hS e).1 fun a => .rfl)
  | .or op l r => by
    have h1 : Same H ((Bin.or op l r).sem H s).ors
        (l.eval H s >>= firstOr H s >>= thenOr H s op (r.eval H s)) :=
      .bind (sem_eval hS l).2.1 fun c => thenOr_same (sem_eval hS r).1 c
    have h2 : Same H ((Bin.or op l r).sem H s).val ((Bin.or op l r).eval H s) :=
      (Same.bind h1 fun _ => .rfl).trans or_once
    exact ⟨h2, h1.trans ((or_twice hS).trans (.bind or_once fun _ => .rfl)), .bind h2 fun _ => .rfl⟩
  | .and op l r => by
    have h1 : Same H ((Bin.and op l r).sem H s).ands
        (l.eval H s >>= firstAnd H s >>= thenAnd H s op (r.eval H s)) :=
      .bind (sem_eval hS l).2.2 fun c => thenAnd_same (sem_eval hS r).1 c
    have h2 : Same H ((Bin.and op l r).sem H s).val ((Bin.and op l r).eval H s) :=
      (Same.bind h1 fun _ => .rfl).trans and_once
    exact ⟨h2, .bind h2 fun _ => .rfl, h1.trans ((and_twice hS).trans (.bind and_once fun _ => .rfl))⟩

/-! ### The package's own operators -/

theorem grows_prim (p : Prim F S) (st : Vql.St F S) : st.lazies.length ≤ (p.step st).2.lazies.length := by
  cases p with
  | newLazy e s => simp [Prim.step]
  | lazySet c v =>
    simp only [Prim.step]
    split <;> simp
  | fnOf m name =>
    simp only [Prim.step]
    split <;> exact Nat.le_refl _
  | ag s f =>
    show _ ≤ (st.getAg s).2.lazies.length
    unfold St.getAg
    simp only
    split <;> exact Nat.le_refl _
  | _ => exact Nat.le_refl _

theorem grows_interp {rec : (c : Call F) → Vql.St F S → Option (c.Ret × Vql.St F S)}
    (hr : ∀ c st r, rec c st = some r → st.lazies.length ≤ r.2.lazies.length) {α : Type} (p : Prog F S α) :
    ∀ st r, interp rec p st = some r → st.lazies.length ≤ r.2.lazies.length := by
  induction p with
  | ret a => intro st r h; simp only [interp, Option.some.injEq] at h; subst h; exact Nat.le_refl _
  | call c k ih =>
    intro st r h
    simp only [interp] at h
    cases hc : rec c st with
    | none => simp [hc] at h
    | some x =>
      rw [hc] at h
      exact Nat.le_trans (hr _ _ _ hc) (ih _ _ _ h)
  | prim p k ih =>
    intro st r h
    simp only [interp] at h
    exact Nat.le_trans (grows_prim p st) (ih _ _ _ h)

theorem grows_run : ∀ n (c : Call F) st r, run H n c st = some r → st.lazies.length ≤ r.2.lazies.length
  | 0, c, st, r, h => by simp [run] at h
  | n + 1, c, st, r, h => grows_interp (fun c st r h => grows_run n c st r h) _ st r (by simpa only [run] using h)

theorem grows {α : Type} {p : Prog F S α} {st st' : Vql.St F S} {a : α} (h : Runs H p st a st') :
    st.lazies.length ≤ st'.lazies.length := by
  obtain ⟨n, h⟩ := h
  exact grows_interp (fun c st r h => grows_run n c st r h) p st _ h

/-- A lazy expression that was reduced gives the same value again, and nothing changes. -/
theorem reduced_again {c : Nat} {st st' : Vql.St F S} {v : V F}
    (h : Runs H (Vql.call (.lazyReduce c)) st v st') : Runs H (Vql.call (.lazyReduce c)) st' v st' := by
  rw [runs_call] at h ⊢
  simp only [body] at h ⊢
  rw [runs_pb] at h ⊢
  simp only [Prim.step] at h ⊢
  cases hl : st.lazies[c]? with
  | none =>
    rw [hl] at h
    obtain ⟨rfl, rfl⟩ := runs_pure.1 h
    rw [hl]
    exact h
  | some l =>
    rw [hl] at h
    cases hv : l.value with
    | some w =>
      simp only [hv] at h
      obtain ⟨rfl, rfl⟩ := runs_pure.1 h
      rw [hl]
      simp only [hv]
      exact runs_pure.2 ⟨rfl, rfl⟩
    | none =>
      simp only [hv] at h
      obtain ⟨w, s1, h1, h2⟩ := runs_bind.1 h
      rw [runs_pb] at h2
      obtain ⟨rfl, rfl⟩ := runs_pure.1 h2
      have hlt : c < s1.lazies.length :=
        Nat.lt_of_lt_of_le (List.getElem?_eq_some_iff.1 hl).1 (grows h1)
      have e : ((Prim.lazySet c v : Prim F S).step s1).2.lazies[c]? =
          some { s1.lazies[c] with value := some v } := by
        simp only [Prim.step, List.getElem?_eq_getElem hlt]
        rw [List.getElem?_set_self hlt]
      rw [e]
      exact runs_pure.2 ⟨rfl, rfl⟩

/-- The package's own functions and operators are steady. -/
theorem std_steady {W : World F Obj} {matchF : V F → V F → Bool} {fmtV : V F → Str} {colName : Col → Str}
    {num : Str → Option (V F)} {sources : OD (List (V F))} :
    Steady (stdHost W matchF fmtV colName num sources : Host F S) := by
  constructor
  · intro v s st b st' h
    obtain ⟨w, s1, h1, h2⟩ := runs_bind.1 h
    obtain ⟨rfl, rfl⟩ := runs_pure.1 h2
    refine runs_bind.2 ⟨w, _, ?_, runs_pure.2 ⟨rfl, rfl⟩⟩
    cases v with
    | obj o =>
      cases o with
      | lazy c => exact reduced_again h1
      | _ => obtain ⟨rfl, rfl⟩ := runs_pure.1 h1; exact h1
    | _ => obtain ⟨rfl, rfl⟩ := runs_pure.1 h1; exact h1
  · intro x s st
    exact runs_bind.2 ⟨.bool x, st, runs_pure.2 ⟨rfl, rfl⟩, runs_pure.2 ⟨by cases x <;> rfl, rfl⟩⟩

end

theorem known_operands {lim : Str → Option Int} : ∀ (b : Bin CMember) (n : Nat), b.Good lim → (b.operands n).1.Known
  | .leaf _, _, _ => trivial
  | .mul _ l r, n, h => ⟨h.1, known_operands l _ h.2.1, known_operands r _ h.2.2⟩
  | .add _ l r, n, h => ⟨h.1, known_operands l _ h.2.1, known_operands r _ h.2.2⟩
  | .cmp _ l r, n, h => ⟨known_operands l _ h.2.1, known_operands r _ h.2.2⟩
  | .not e, n, h => known_operands e n h
  | .or _ l r, n, h => ⟨known_operands l _ h.2.1, known_operands r _ h.2.2⟩
  | .and _ l r, n, h => ⟨known_operands l _ h.2.1, known_operands r _ h.2.2⟩

/-! ## With all parentheses -/

/-- `(e)` as an operand. -/
def boxed (b : Bin CMember) : Bin CMember := .leaf (.mk [] b.tree.sub [])

/-- All operands in parentheses. -/
def Bin.full : Bin CMember → Bin CMember
  | .leaf a => .leaf a
  | .mul op l r => .mul op (boxed l.full) (boxed r.full)
  | .add op l r => .add op (boxed l.full) (boxed r.full)
  | .cmp op l r => .cmp op (boxed l.full) (boxed r.full)
  | .not e => .not (boxed e.full)
  | .or op l r => .or op (boxed l.full) (boxed r.full)
  | .and op l r => .and op (boxed l.full) (boxed r.full)

def inParens (ts : List Tok) : List Tok := ⟨.op, bs "("⟩ :: ts ++ [⟨.op, bs ")"⟩]

/-- The words of an expression with all operands in parentheses. -/
def Bin.fullWords : Bin CMember → List Tok
  | .leaf a => toks (itMember a)
  | .mul op l r => inParens l.fullWords ++ ⟨.op, op⟩ :: inParens r.fullWords
  | .add op l r => inParens l.fullWords ++ ⟨.op, op⟩ :: inParens r.fullWords
  | .cmp op l r => inParens l.fullWords ++ cmpTok op :: inParens r.fullWords
  | .not e => ⟨.not_, bs "NOT"⟩ :: inParens e.fullWords
  | .or op l r => inParens l.fullWords ++ orTok op :: inParens r.fullWords
  | .and op l r => inParens l.fullWords ++ andTok op :: inParens r.fullWords

theorem boxed_words (b : Bin CMember) : (boxed b).words = inParens b.words := by
  simp only [boxed, Bin.words, itMember, itMTerms, List.append_nil, sub_words, tree_words, inParens]

theorem par_boxed {k : Nat} (hk : k ≤ 6) (b : Bin CMember) :
    par k (boxed b).prec (boxed b).words = inParens b.words := by
  rw [boxed_words]
  exact if_pos hk

theorem full_words : ∀ b : Bin CMember, b.full.words = b.fullWords
  | .leaf a => rfl
  | .mul op l r => by simp only [Bin.full, Bin.words, Bin.fullWords, par_boxed, Nat.le_refl,
      show 4 ≤ 6 by decide, full_words l, full_words r]
  | .add op l r => by simp only [Bin.full, Bin.words, Bin.fullWords, par_boxed,
      show 4 ≤ 6 by decide, show 3 ≤ 6 by decide, full_words l, full_words r]
  | .cmp op l r => by simp only [Bin.full, Bin.words, Bin.fullWords, par_boxed,
      show 3 ≤ 6 by decide, full_words l, full_words r]
  | .not e => by simp only [Bin.full, Bin.words, Bin.fullWords, par_boxed,
      show 2 ≤ 6 by decide, full_words e]
  | .or op l r => by simp only [Bin.full, Bin.words, Bin.fullWords, par_boxed,
      show 2 ≤ 6 by decide, show 1 ≤ 6 by decide, full_words l, full_words r]
  | .and op l r => by simp only [Bin.full, Bin.words, Bin.fullWords, par_boxed,
      show 0 ≤ 6 by decide, show 1 ≤ 6 by decide, full_words l, full_words r]

theorem boxed_good {lim : Str → Option Int} {b : Bin CMember} (h : b.Good lim) : (boxed b).Good lim :=
  memOf_w lim (tree_w lim h)

theorem full_good {lim : Str → Option Int} : ∀ b : Bin CMember, b.Good lim → b.full.Good lim
  | .leaf a, h => h
  | .mul _ l r, h => ⟨h.1, boxed_good (full_good l h.2.1), boxed_good (full_good r h.2.2)⟩
  | .add _ l r, h => ⟨h.1, boxed_good (full_good l h.2.1), boxed_good (full_good r h.2.2)⟩
  | .cmp _ l r, h => ⟨h.1, boxed_good (full_good l h.2.1), boxed_good (full_good r h.2.2)⟩
  | .not e, h => boxed_good (full_good e h)
  | .or _ l r, h => ⟨h.1, boxed_good (full_good l h.2.1), boxed_good (full_good r h.2.2)⟩
  | .and _ l r, h => ⟨h.1, boxed_good (full_good l h.2.1), boxed_good (full_good r h.2.2)⟩

theorem boxed_operands (b : Bin CMember) (n : Nat) :
    (boxed b).operands n = (.leaf (.mk (b.operands n).1.low.sub []), (b.operands n).2) := by
  simp only [boxed, Bin.operands, lowMember, lowMTerms, low_sub, tree_low]

theorem full_count : ∀ (b : Bin CMember) (n : Nat), (b.full.operands n).2 = (b.operands n).2
  | .leaf a, n => rfl
  | .mul _ l r, n => by simp only [Bin.full, Bin.operands, boxed_operands, full_count l, full_count r]
  | .add _ l r, n => by simp only [Bin.full, Bin.operands, boxed_operands, full_count l, full_count r]
  | .cmp _ l r, n => by simp only [Bin.full, Bin.operands, boxed_operands, full_count l, full_count r]
  | .not e, n => by simp only [Bin.full, Bin.operands, boxed_operands, full_count e]
  | .or _ l r, n => by simp only [Bin.full, Bin.operands, boxed_operands, full_count l, full_count r]
  | .and _ l r, n => by simp only [Bin.full, Bin.operands, boxed_operands, full_count l, full_count r]

section
variable {F S : Type} [FloatOps F] {H : Host F S} {s : Nat}

theorem low_eval (hS : Steady H) {b : Bin Member} (hb : b.Known) : Same H (b.low.run s) (b.eval H s) :=
  (does b hb).1.trans (sem_eval hS b).1

theorem boxed_eval (hS : Steady H) {b : Bin Member} (hb : b.Known) :
    Same H (Vql.call (.member (.mk b.low.sub []) s)) (b.eval H s) :=
  (run_memOf _).trans (low_eval hS hb)

theorem full_eval {lim : Str → Option Int} (hS : Steady H) : ∀ (b : Bin CMember) (n : Nat), b.Good lim →
    Same H ((b.full.operands n).1.eval H s) ((b.operands n).1.eval H s)
  | .leaf a, n, _ => .rfl
  | .mul op l r, n, h => by
    have h1 := (boxed_eval hS (known_operands _ n (full_good l h.2.1))).trans (full_eval hS l n h.2.1)
    have h2 := (boxed_eval hS (known_operands _ (l.operands n).2 (full_good r h.2.2))).trans
      (full_eval hS r (l.operands n).2 h.2.2)
    simp only [Bin.full, Bin.operands, boxed_operands, full_count]
    exact .bind h1 fun _ => .bind h2 fun _ => .rfl
  | .add op l r, n, h => by
    have h1 := (boxed_eval hS (known_operands _ n (full_good l h.2.1))).trans (full_eval hS l n h.2.1)
    have h2 := (boxed_eval hS (known_operands _ (l.operands n).2 (full_good r h.2.2))).trans
      (full_eval hS r (l.operands n).2 h.2.2)
    simp only [Bin.full, Bin.operands, boxed_operands, full_count]
    exact .bind h1 fun _ => .bind h2 fun _ => .rfl
  | .cmp op l r, n, h => by
    have h1 := (boxed_eval hS (known_operands _ n (full_good l h.2.1))).trans (full_eval hS l n h.2.1)
    have h2 := (boxed_eval hS (known_operands _ (l.operands n).2 (full_good r h.2.2))).trans
      (full_eval hS r (l.operands n).2 h.2.2)
    simp only [Bin.full, Bin.operands, boxed_operands, full_count]
    exact .bind h1 fun _ => .bind h2 fun _ => .rfl
  | .not e, n, h => by
    have h1 := (boxed_eval hS (known_operands _ n (full_good e h))).trans (full_eval hS e n h)
    simp only [Bin.full, Bin.operands, boxed_operands, full_count]
    exact .bind h1 fun _ => .rfl
  | .or op l r, n, h => by
    have h1 := (boxed_eval hS (known_operands _ n (full_good l h.2.1))).trans (full_eval hS l n h.2.1)
    have h2 := (boxed_eval hS (known_operands _ (l.operands n).2 (full_good r h.2.2))).trans
      (full_eval hS r (l.operands n).2 h.2.2)
    simp only [Bin.full, Bin.operands, boxed_operands, full_count]
    refine .bind h1 fun _ => .bind .rfl fun x => ?_
    cases x
    · exact .bind h2 fun _ => .rfl
    · exact .rfl
  | .and op l r, n, h => by
    have h1 := (boxed_eval hS (known_operands _ n (full_good l h.2.1))).trans (full_eval hS l n h.2.1)
    have h2 := (boxed_eval hS (known_operands _ (l.operands n).2 (full_good r h.2.2))).trans
      (full_eval hS r (l.operands n).2 h.2.2)
    simp only [Bin.full, Bin.operands, boxed_operands, full_count]
    refine .bind h1 fun _ => .bind .rfl fun x => ?_
    cases x
    · exact .rfl
    · exact .bind h2 fun _ => .rfl
end

/-! ## The property -/

/-- The text is `LET x = ` and the words. -/
def Defines (s x : Str) (ws : List Tok) : Prop :=
  Spacing.words s = some (⟨.let_, bs "LET"⟩ :: ⟨.ident, x⟩ :: ⟨.op, bs "="⟩ :: ws)

/-- **C76** An expression is read and evaluated by the table, whatever the application registers:
the operands from left to right, each operator on the operands that the table gives it.  A chain of
ANDs or ORs tests every operand once. -/
theorem C76_precedence {lim : Str → Option Int} {t x : Str} {b : Bin CMember} (hx : IsTok .ident x)
    (hb : b.Good lim) (ht : Defines t x b.words) :
    ∃ e, parse lim t = some (.let_ [] x false [] (bs "=") (.expr e)) ∧
      ∀ (F S : Type) [FloatOps F] (H : Host F S) (s n : Nat) st v st',
        Runs H (Vql.call (.and (lowAnd e n).1 s)) st v st' ↔ Runs H ((b.operands n).1.sem H s).val st v st' := by
  refine ⟨_, reads_let hx hb ht, fun F S _ H s n st v st' => ?_⟩
  rw [low_and, tree_low]
  exact ((run_and _).trans (does _ (known_operands b n hb)).1) st v st'

/-- **C76** Two operands at a time, if asking for the truth of a value again changes nothing. -/
theorem C76_pairs {lim : Str → Option Int} {t x : Str} {b : Bin CMember} (hx : IsTok .ident x)
    (hb : b.Good lim) (ht : Defines t x b.words) :
    ∃ e, parse lim t = some (.let_ [] x false [] (bs "=") (.expr e)) ∧
      ∀ (F S : Type) [FloatOps F] (H : Host F S) (s n : Nat) st v st', Steady H →
        (Runs H (Vql.call (.and (lowAnd e n).1 s)) st v st' ↔ Runs H ((b.operands n).1.eval H s) st v st') := by
  refine ⟨_, reads_let hx hb ht, fun F S _ H s n st v st' hS => ?_⟩
  rw [low_and, tree_low]
  exact ((run_and _).trans (low_eval hS (known_operands b n hb))) st v st'

/-- **C76** Parentheses that the table allows to leave out do not matter. -/
theorem C76_parentheses {lim : Str → Option Int} {t t' x : Str} {b : Bin CMember} (hx : IsTok .ident x)
    (hb : b.Good lim) (ht : Defines t x b.words) (ht' : Defines t' x b.fullWords) :
    ∃ e e', parse lim t = some (.let_ [] x false [] (bs "=") (.expr e)) ∧
      parse lim t' = some (.let_ [] x false [] (bs "=") (.expr e')) ∧
      ∀ (F S : Type) [FloatOps F] (H : Host F S) (s n : Nat) st v st', Steady H →
        (Runs H (Vql.call (.and (lowAnd e n).1 s)) st v st' ↔ Runs H (Vql.call (.and (lowAnd e' n).1 s)) st v st') := by
  rw [← full_words] at ht'
  obtain ⟨e, h1, h2⟩ := C76_pairs hx hb ht
  obtain ⟨e', h3, h4⟩ := C76_pairs hx (full_good b hb) ht'
  refine ⟨e, e', h1, h3, fun F S _ H s n st v st' hS => ?_⟩
  exact (h2 F S H s n st v st' hS).trans ((full_eval (lim := lim) hS b n hb st v st').symm.trans
    (h4 F S H s n st v st' hS).symm)

/-! ## What the table does not say -/

/-- A literal TRUE or FALSE. -/
def lit (b : Bool) : Bin CMember := .leaf (.mk [] (.mk [] (.bool (if b then bs "TRUE" else bs "FALSE"))) [])

theorem lit_good (lim : Str → Option Int) (b : Bool) : (lit b).Good lim := by
  cases b
  · exact ⟨rfl, ⟨rfl, show IsTok .bool (bs "FALSE") by decide +kernel⟩, trivial, fun _ => rfl⟩
  · exact ⟨rfl, ⟨rfl, show IsTok .bool (bs "TRUE") by decide +kernel⟩, trivial, fun _ => rfl⟩

/-- OR binds tighter than AND: `FALSE AND TRUE OR TRUE` is FALSE, where SQL, C and Go would have
TRUE. -/
theorem C76_or_before_and_refuted :
    ∃ e e', parse (fun _ => none) (bs "LET x = FALSE AND TRUE OR TRUE") =
        some (.let_ [] (bs "x") false [] (bs "=") (.expr e)) ∧
      parse (fun _ => none) (bs "LET x = (FALSE AND TRUE) OR TRUE") =
        some (.let_ [] (bs "x") false [] (bs "=") (.expr e')) ∧
      ∀ (F S : Type) [FloatOps F] (H : Host F S) (s n : Nat) st, Steady H →
        Runs H (Vql.call (.and (lowAnd e n).1 s)) st (.bool false) st ∧
        Runs H (Vql.call (.and (lowAnd e' n).1 s)) st (.bool true) st := by
  have hx : IsTok .ident (bs "x") := by decide +kernel
  obtain ⟨e, h1, h2⟩ := C76_pairs (lim := fun _ => none) (t := bs "LET x = FALSE AND TRUE OR TRUE")
    (b := .and (bs "AND") (lit false) (.or (bs "OR") (lit true) (lit true))) hx
    ⟨by decide +kernel, lit_good _ _, by decide +kernel, lit_good _ _, lit_good _ _⟩ (by unfold Defines; decide +kernel)
  obtain ⟨e', h3, h4⟩ := C76_pairs (lim := fun _ => none) (t := bs "LET x = (FALSE AND TRUE) OR TRUE")
    (b := .or (bs "OR") (.and (bs "AND") (lit false) (lit true)) (lit true)) hx
    ⟨by decide +kernel, ⟨by decide +kernel, lit_good _ _, lit_good _ _⟩, lit_good _ _⟩ (by unfold Defines; decide +kernel)
  refine ⟨e, e', h1, h3, fun F S _ H s n st hS => ⟨(h2 F S H s n _ _ _ hS).2 ?_, (h4 F S H s n _ _ _ hS).2 ?_⟩⟩
  all_goals
    have hl : ∀ b (n : Nat), Runs H (((lit b).operands n).1.eval H s) st (.bool b) st := by
      intro b n
      refine (memOf _ _ _ _).2 ?_
      rw [runs_call]
      cases b <;> exact runs_pure.2 ⟨rfl, rfl⟩
  · exact runs_bind.2 ⟨.bool false, st, hl false n, runs_bind.2 ⟨false, st, hS.2 _ _ _, runs_pure.2 ⟨rfl, rfl⟩⟩⟩
  · refine runs_bind.2 ⟨.bool false, st, runs_bind.2 ⟨.bool false, st, hl false n,
      runs_bind.2 ⟨false, st, hS.2 _ _ _, runs_pure.2 ⟨rfl, rfl⟩⟩⟩,
      runs_bind.2 ⟨false, st, hS.2 _ _ _, ?_⟩⟩
    exact runs_bind.2 ⟨.bool true, st, hl true n, runs_bind.2 ⟨true, st, hS.2 _ _ _, runs_pure.2 ⟨rfl, rfl⟩⟩⟩

/-- Of several comparisons only the last is kept (`Right *_OpComparison` with `{ @@ }`,
vfilter.go:995-1000): `a < b < c` is read as `a < c`. -/
theorem C76_chained_comparison_refuted :
    ((parse (fun _ => none) (bs "LET x = a < b < c")).map fun t => toks (itStmt t)) =
      Spacing.words (bs "LET x = a < c") := by decide +kernel

/-- The right operand of `*` and `/` has no indexes (vfilter.go:917-920): `2 * a[0]` is no
expression, `a[0] * 2` is one. -/
theorem C76_index_behind_times_refuted :
    parse (fun _ => none) (bs "LET x = 2 * a[0]") = none ∧
    (parse (fun _ => none) (bs "LET x = 2 * (a[0])")).isSome = true ∧
    (parse (fun _ => none) (bs "LET x = a[0] * 2")).isSome = true ∧
    (parse (fun _ => none) (bs "LET x = 2 + a[0]")).isSome = true := by
  refine ⟨?_, ?_, ?_, ?_⟩ <;> decide +kernel

/-! ## Examples -/

/-- A name. -/
def name (x : Str) : Bin CMember := .leaf (.mk [] (.mk [] (.sym (.mk [] x false []))) [])

/-- `a + b * c - d < e OR NOT f = g AND h` has the words that the table asks for. -/
example : Defines (bs "LET x = a + b * c - d < e OR NOT f = g AND h") (bs "x")
    (Bin.and (bs "AND")
      (.or (bs "OR")
        (.cmp (bs "<") (.add (bs "-") (.add (bs "+") (name (bs "a")) (.mul (bs "*") (name (bs "b")) (name (bs "c"))))
          (name (bs "d"))) (name (bs "e")))
        (.not (.cmp (bs "=") (name (bs "f")) (name (bs "g")))))
      (name (bs "h"))).words := by unfold Defines; decide +kernel

/-- With other trees the same operands and operators need parentheses. -/
example : Defines (bs "LET x = (a + b) * c - (d < e OR (NOT f) = (g AND h))") (bs "x")
    (Bin.add (bs "-")
      (.mul (bs "*") (.add (bs "+") (name (bs "a")) (name (bs "b"))) (name (bs "c")))
      (.or (bs "OR") (.cmp (bs "<") (name (bs "d")) (name (bs "e")))
        (.cmp (bs "=") (.not (name (bs "f"))) (.and (bs "AND") (name (bs "g")) (name (bs "h")))))).words := by
  unfold Defines; decide +kernel

/-- Names are operands. -/
theorem name_good (lim : Str → Option Int) {x : Str} (hx : IsTok .ident x) : (name x).Good lim :=
  ⟨rfl, ⟨rfl, rfl, ⟨x, [], ⟨.ident, by simp, hx⟩, by simp, by simp⟩, trivial, by simp⟩, trivial, by simp [startsField]⟩

/-- `a AND b OR c` is evaluated as `a AND (b OR c)`. -/
example : ∃ e e', parse (fun _ => none) (bs "LET x = a AND b OR c") = some (.let_ [] (bs "x") false [] (bs "=") (.expr e)) ∧
      parse (fun _ => none) (bs "LET x = (a) AND ((b) OR (c))") = some (.let_ [] (bs "x") false [] (bs "=") (.expr e')) ∧
      ∀ (F S : Type) [FloatOps F] (H : Host F S) (s n : Nat) st v st', Steady H →
        (Runs H (Vql.call (.and (lowAnd e n).1 s)) st v st' ↔ Runs H (Vql.call (.and (lowAnd e' n).1 s)) st v st') :=
  C76_parentheses (b := .and (bs "AND") (name (bs "a")) (.or (bs "OR") (name (bs "b")) (name (bs "c"))))
    (by decide +kernel) ⟨by decide +kernel, name_good _ (by decide +kernel), by decide +kernel,
      name_good _ (by decide +kernel), name_good _ (by decide +kernel)⟩
    (by unfold Defines; decide +kernel) (by unfold Defines; decide +kernel)

end Vfilter.Fmt.Prec
