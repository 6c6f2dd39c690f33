import Verif.Outline
/-!
# What the outline lists (C51)
-/

set_option linter.all false

namespace Vfilter.Fmt

mutual
/-- The function calls of an expression in source order, each with the number of calls in
whose arguments it stands.  Sub queries are not entered. -/
def callsAnd (d : Nat) : CAnd → List (Nat × Str)
  | .mk _ l rs => callsOr d l ++ callsAndTs d rs
def callsAndTs (d : Nat) : List CAndT → List (Nat × Str)
  | [] => []
  | .mk _ t :: rs => callsOr d t ++ callsAndTs d rs
def callsOr (d : Nat) : COr → List (Nat × Str)
  | .mk _ l rs => callsCond d l ++ callsOrTs d rs
def callsOrTs (d : Nat) : List COrT → List (Nat × Str)
  | [] => []
  | .mk _ t :: rs => callsCond d t ++ callsOrTs d rs
def callsCond (d : Nat) : CCond → List (Nat × Str)
  | .not _ c => callsCond d c
  | .cmp _ l none => callsAdd d l
  | .cmp _ l (some (.mk _ r)) => callsAdd d l ++ callsAdd d r
def callsAdd (d : Nat) : CAdd → List (Nat × Str)
  | .mk _ l rs => callsMul d l ++ callsAddTs d rs
def callsAddTs (d : Nat) : List CAddT → List (Nat × Str)
  | [] => []
  | .mk _ t :: rs => callsMul d t ++ callsAddTs d rs
def callsMul (d : Nat) : CMul → List (Nat × Str)
  | .mk _ l rs => callsMember d l ++ callsMulTs d rs
def callsMulTs (d : Nat) : List CMulT → List (Nat × Str)
  | [] => []
  | .mk _ t :: rs => callsVal d t ++ callsMulTs d rs
def callsMember (d : Nat) : CMember → List (Nat × Str)
  | .mk _ l rs => callsVal d l ++ callsMTerms d rs
def callsMTerms (d : Nat) : List CMTerm → List (Nat × Str)
  | [] => []
  | .range i j :: rs => callsOptVal d i ++ callsOptVal d j ++ callsMTerms d rs
  | .index i :: rs => callsVal d i ++ callsMTerms d rs
  | .field _ :: rs => callsMTerms d rs
  | .empty :: rs => callsMTerms d rs
def callsOptVal (d : Nat) : Option CVal → List (Nat × Str)
  | none => []
  | some x => callsVal d x
def callsVal (d : Nat) : CVal → List (Nat × Str)
  | .mk _ b => callsValB d b
def callsValB (d : Nat) : CValB → List (Nat × Str)
  | .sym (.mk _ n called ps) => (if called then [(d, n)] else []) ++ callsArgs (d + 1) ps
  | .sub c => callsComma d c
  | _ => []
def callsComma (d : Nat) : CComma → List (Nat × Str)
  | .mk _ l rs => callsAnd d l ++ callsCommaTs d rs
def callsCommaTs (d : Nat) : List CCommaT → List (Nat × Str)
  | [] => []
  | .mk _ _ none :: rs => callsCommaTs d rs
  | .mk _ _ (some t) :: rs => callsAnd d t ++ callsCommaTs d rs
def callsArgs (d : Nat) : List CArg → List (Nat × Str)
  | [] => []
  | .mk _ _ (.expr e) :: as => callsAnd d e ++ callsArgs d as
  | .mk _ _ (.array c) :: as => callsComma d c ++ callsArgs d as
  | .mk _ _ (.select _) :: as => callsArgs d as
  | .mk _ _ .empty :: as => callsArgs d as
end

mutual
theorem deepAnd : ∀ (e : CAnd) (d : Nat), ∀ p ∈ callsAnd d e, d ≤ p.1
  | .mk _ l rs, d, p, h => by
    simp only [callsAnd, List.mem_append] at h
    exact h.elim (deepOr l d p) (deepAndTs rs d p)
theorem deepAndTs : ∀ (e : List CAndT) (d : Nat), ∀ p ∈ callsAndTs d e, d ≤ p.1
  | [], d, p, h => by simp [callsAndTs] at h
  | .mk _ t :: rs, d, p, h => by
    simp only [callsAndTs, List.mem_append] at h
    exact h.elim (deepOr t d p) (deepAndTs rs d p)
theorem deepOr : ∀ (e : COr) (d : Nat), ∀ p ∈ callsOr d e, d ≤ p.1
  | .mk _ l rs, d, p, h => by
    simp only [callsOr, List.mem_append] at h
    exact h.elim (deepCond l d p) (deepOrTs rs d p)
theorem deepOrTs : ∀ (e : List COrT) (d : Nat), ∀ p ∈ callsOrTs d e, d ≤ p.1
  | [], d, p, h => by simp [callsOrTs] at h
  | .mk _ t :: rs, d, p, h => by
    simp only [callsOrTs, List.mem_append] at h
    exact h.elim (deepCond t d p) (deepOrTs rs d p)
theorem deepCond : ∀ (e : CCond) (d : Nat), ∀ p ∈ callsCond d e, d ≤ p.1
  | .not _ c, d, p, h => by
    simp only [callsCond] at h
    exact deepCond c d p h
  | .cmp _ l none, d, p, h => by
    simp only [callsCond] at h
    exact deepAdd l d p h
  | .cmp _ l (some (.mk _ r)), d, p, h => by
    simp only [callsCond, List.mem_append] at h
    exact h.elim (deepAdd l d p) (deepAdd r d p)
theorem deepAdd : ∀ (e : CAdd) (d : Nat), ∀ p ∈ callsAdd d e, d ≤ p.1
  | .mk _ l rs, d, p, h => by
    simp only [callsAdd, List.mem_append] at h
    exact h.elim (deepMul l d p) (deepAddTs rs d p)
theorem deepAddTs : ∀ (e : List CAddT) (d : Nat), ∀ p ∈ callsAddTs d e, d ≤ p.1
  | [], d, p, h => by simp [callsAddTs] at h
  | .mk _ t :: rs, d, p, h => by
    simp only [callsAddTs, List.mem_append] at h
    exact h.elim (deepMul t d p) (deepAddTs rs d p)
theorem deepMul : ∀ (e : CMul) (d : Nat), ∀ p ∈ callsMul d e, d ≤ p.1
  | .mk _ l rs, d, p, h => by
    simp only [callsMul, List.mem_append] at h
    exact h.elim (deepMember l d p) (deepMulTs rs d p)
theorem deepMulTs : ∀ (e : List CMulT) (d : Nat), ∀ p ∈ callsMulTs d e, d ≤ p.1
  | [], d, p, h => by simp [callsMulTs] at h
  | .mk _ t :: rs, d, p, h => by
    simp only [callsMulTs, List.mem_append] at h
    exact h.elim (deepVal t d p) (deepMulTs rs d p)
theorem deepMember : ∀ (e : CMember) (d : Nat), ∀ p ∈ callsMember d e, d ≤ p.1
  | .mk _ l rs, d, p, h => by
    simp only [callsMember, List.mem_append] at h
    exact h.elim (deepVal l d p) (deepMTerms rs d p)
theorem deepMTerms : ∀ (e : List CMTerm) (d : Nat), ∀ p ∈ callsMTerms d e, d ≤ p.1
  | [], d, p, h => by simp [callsMTerms] at h
  | .range i j :: rs, d, p, h => by
    simp only [callsMTerms, List.mem_append] at h
    exact h.elim (fun h => h.elim (deepOptVal i d p) (deepOptVal j d p)) (deepMTerms rs d p)
  | .index i :: rs, d, p, h => by
    simp only [callsMTerms, List.mem_append] at h
    exact h.elim (deepVal i d p) (deepMTerms rs d p)
  | .field _ :: rs, d, p, h => by
    simp only [callsMTerms] at h
    exact deepMTerms rs d p h
  | .empty :: rs, d, p, h => by
    simp only [callsMTerms] at h
    exact deepMTerms rs d p h
theorem deepOptVal : ∀ (e : Option CVal) (d : Nat), ∀ p ∈ callsOptVal d e, d ≤ p.1
  | none, d, p, h => by simp [callsOptVal] at h
  | some x, d, p, h => by
    simp only [callsOptVal] at h
    exact deepVal x d p h
theorem deepVal : ∀ (e : CVal) (d : Nat), ∀ p ∈ callsVal d e, d ≤ p.1
  | .mk _ b, d, p, h => by
    simp only [callsVal] at h
    exact deepValB b d p h
theorem deepValB : ∀ (e : CValB) (d : Nat), ∀ p ∈ callsValB d e, d ≤ p.1
  | .sym (.mk _ n called ps), d, p, h => by
    simp only [callsValB, List.mem_append] at h
    rcases h with h | h
    · split at h
      · simp only [List.mem_cons, List.mem_nil_iff, or_false] at h
        rw [h]; exact Nat.le_refl _
      · cases h
    · exact Nat.le_of_succ_le (deepArgs ps (d + 1) p h)
  | .sub c, d, p, h => by
    simp only [callsValB] at h
    exact deepComma c d p h
  | .str _, d, p, h => by simp [callsValB] at h
  | .num _, d, p, h => by simp [callsValB] at h
  | .bool _, d, p, h => by simp [callsValB] at h
  | .null, d, p, h => by simp [callsValB] at h
theorem deepComma : ∀ (e : CComma) (d : Nat), ∀ p ∈ callsComma d e, d ≤ p.1
  | .mk _ l rs, d, p, h => by
    simp only [callsComma, List.mem_append] at h
    exact h.elim (deepAnd l d p) (deepCommaTs rs d p)
theorem deepCommaTs : ∀ (e : List CCommaT) (d : Nat), ∀ p ∈ callsCommaTs d e, d ≤ p.1
  | [], d, p, h => by simp [callsCommaTs] at h
  | .mk _ _ none :: rs, d, p, h => by
    simp only [callsCommaTs] at h
    exact deepCommaTs rs d p h
  | .mk _ _ (some t) :: rs, d, p, h => by
    simp only [callsCommaTs, List.mem_append] at h
    exact h.elim (deepAnd t d p) (deepCommaTs rs d p)
theorem deepArgs : ∀ (e : List CArg) (d : Nat), ∀ p ∈ callsArgs d e, d ≤ p.1
  | [], d, p, h => by simp [callsArgs] at h
  | .mk _ _ (.expr e) :: as, d, p, h => by
    simp only [callsArgs, List.mem_append] at h
    exact h.elim (deepAnd e d p) (deepArgs as d p)
  | .mk _ _ (.array c) :: as, d, p, h => by
    simp only [callsArgs, List.mem_append] at h
    exact h.elim (deepComma c d p) (deepArgs as d p)
  | .mk _ _ (.select _) :: as, d, p, h => by
    simp only [callsArgs] at h
    exact deepArgs as d p h
  | .mk _ _ .empty :: as, d, p, h => by
    simp only [callsArgs] at h
    exact deepArgs as d p h
end

/-- The entries for the calls that stand in no argument list. -/
def top (l : List (Nat × Str)) : List OInfo :=
  (l.filter (fun p => p.1 == 0)).map fun p => .mk p.2 .function []

theorem top_append (a b : List (Nat × Str)) : top (a ++ b) = top a ++ top b := by simp [top]

theorem top_nil : top [] = [] := rfl

theorem top_args (ps : List CArg) : top (callsArgs 1 ps) = [] := by
  unfold top
  rw [List.filter_eq_nil_iff.2, List.map_nil]
  intro p hp
  have := deepArgs ps 1 p hp
  simp; omega

mutual
theorem gAnd_eq : ∀ (e : CAnd) (acc : List OInfo), gAnd e acc = acc ++ top (callsAnd 0 e)
  | .mk _ l rs, acc => by simp only [gAnd, callsAnd, top_append, gOr_eq l, gAndTs_eq rs, List.append_assoc]
theorem gAndTs_eq : ∀ (e : List CAndT) (acc : List OInfo), gAndTs e acc = acc ++ top (callsAndTs 0 e)
  | [], acc => by simp [gAndTs, callsAndTs, top_nil]
  | .mk _ t :: rs, acc => by
    simp only [gAndTs, callsAndTs, top_append, gOr_eq t, gAndTs_eq rs, List.append_assoc]
theorem gOr_eq : ∀ (e : COr) (acc : List OInfo), gOr e acc = acc ++ top (callsOr 0 e)
  | .mk _ l rs, acc => by simp only [gOr, callsOr, top_append, gCond_eq l, gOrTs_eq rs, List.append_assoc]
theorem gOrTs_eq : ∀ (e : List COrT) (acc : List OInfo), gOrTs e acc = acc ++ top (callsOrTs 0 e)
  | [], acc => by simp [gOrTs, callsOrTs, top_nil]
  | .mk _ t :: rs, acc => by
    simp only [gOrTs, callsOrTs, top_append, gCond_eq t, gOrTs_eq rs, List.append_assoc]
theorem gCond_eq : ∀ (e : CCond) (acc : List OInfo), gCond e acc = acc ++ top (callsCond 0 e)
  | .not _ c, acc => by simp only [gCond, callsCond, gCond_eq c]
  | .cmp _ l none, acc => by simp only [gCond, gCmp, callsCond, gAdd_eq l]
  | .cmp _ l (some (.mk _ r)), acc => by
    simp only [gCond, gCmp, callsCond, top_append, gAdd_eq l, gAdd_eq r, List.append_assoc]
theorem gAdd_eq : ∀ (e : CAdd) (acc : List OInfo), gAdd e acc = acc ++ top (callsAdd 0 e)
  | .mk _ l rs, acc => by simp only [gAdd, callsAdd, top_append, gMul_eq l, gAddTs_eq rs, List.append_assoc]
theorem gAddTs_eq : ∀ (e : List CAddT) (acc : List OInfo), gAddTs e acc = acc ++ top (callsAddTs 0 e)
  | [], acc => by simp [gAddTs, callsAddTs, top_nil]
  | .mk _ t :: rs, acc => by
    simp only [gAddTs, callsAddTs, top_append, gMul_eq t, gAddTs_eq rs, List.append_assoc]
theorem gMul_eq : ∀ (e : CMul) (acc : List OInfo), gMul e acc = acc ++ top (callsMul 0 e)
  | .mk _ l rs, acc => by simp only [gMul, callsMul, top_append, gMember_eq l, gMulTs_eq rs, List.append_assoc]
theorem gMulTs_eq : ∀ (e : List CMulT) (acc : List OInfo), gMulTs e acc = acc ++ top (callsMulTs 0 e)
  | [], acc => by simp [gMulTs, callsMulTs, top_nil]
  | .mk _ t :: rs, acc => by
    simp only [gMulTs, callsMulTs, top_append, gVal_eq t, gMulTs_eq rs, List.append_assoc]
theorem gMember_eq : ∀ (e : CMember) (acc : List OInfo), gMember e acc = acc ++ top (callsMember 0 e)
  | .mk _ l rs, acc => by
    simp only [gMember, callsMember, top_append, gVal_eq l, gMTerms_eq rs, List.append_assoc]
theorem gMTerms_eq : ∀ (e : List CMTerm) (acc : List OInfo), gMTerms e acc = acc ++ top (callsMTerms 0 e)
  | [], acc => by simp [gMTerms, callsMTerms, top_nil]
  | .range i j :: rs, acc => by
    simp only [gMTerms, callsMTerms, top_append, gOptVal_eq i, gOptVal_eq j, gMTerms_eq rs, List.append_assoc]
  | .index i :: rs, acc => by
    simp only [gMTerms, callsMTerms, top_append, gVal_eq i, gMTerms_eq rs, List.append_assoc]
  | .field _ :: rs, acc => by simp only [gMTerms, callsMTerms, gMTerms_eq rs]
  | .empty :: rs, acc => by simp only [gMTerms, callsMTerms, gMTerms_eq rs]
theorem gOptVal_eq : ∀ (e : Option CVal) (acc : List OInfo), gOptVal e acc = acc ++ top (callsOptVal 0 e)
  | none, acc => by simp [gOptVal, callsOptVal, top_nil]
  | some x, acc => by simp only [gOptVal, callsOptVal, gVal_eq x]
theorem gVal_eq : ∀ (e : CVal) (acc : List OInfo), gVal e acc = acc ++ top (callsVal 0 e)
  | .mk _ (.sym (.mk _ n called ps)), acc => by
    simp only [gVal, callsVal, callsValB, top_append, Nat.zero_add, top_args, List.append_nil]
    cases called <;> simp [top]
  | .mk _ (.sub c), acc => by simp only [gVal, callsVal, callsValB, gComma_eq c]
  | .mk _ (.str _), acc => by simp [gVal, callsVal, callsValB, top_nil]
  | .mk _ (.num _), acc => by simp [gVal, callsVal, callsValB, top_nil]
  | .mk _ (.bool _), acc => by simp [gVal, callsVal, callsValB, top_nil]
  | .mk _ .null, acc => by simp [gVal, callsVal, callsValB, top_nil]
theorem gComma_eq : ∀ (e : CComma) (acc : List OInfo), gComma e acc = acc ++ top (callsComma 0 e)
  | .mk _ l rs, acc => by
    simp only [gComma, callsComma, top_append, gAnd_eq l, gCommaTs_eq rs, List.append_assoc]
theorem gCommaTs_eq : ∀ (e : List CCommaT) (acc : List OInfo), gCommaTs e acc = acc ++ top (callsCommaTs 0 e)
  | [], acc => by simp [gCommaTs, callsCommaTs, top_nil]
  | .mk _ _ none :: rs, acc => by simp only [gCommaTs, callsCommaTs, gCommaTs_eq rs]
  | .mk _ _ (some t) :: rs, acc => by
    simp only [gCommaTs, callsCommaTs, top_append, gAnd_eq t, gCommaTs_eq rs, List.append_assoc]
end

/-- The children of an entry. -/
def OInfo.children : OInfo → List OInfo
  | .mk _ _ cs => cs

/-- The name of an entry. -/
def OInfo.name : OInfo → Str
  | .mk n _ _ => n

/-- The kind of an entry. -/
def OInfo.kind : OInfo → OKind
  | .mk _ k _ => k

theorem outlineCols_eq : ∀ cs : List CCol, outlineCols cs = cs.map outlineCol
  | [] => by simp [outlineCols]
  | c :: cs => by simp [outlineCols, outlineCols_eq cs]

/-- C51: the outline of a query is named after its source and has one entry per column of the
column list, in order (the leading `*` is not an entry). -/
theorem C51_columns (cs : List Comment) (ex all : Bool) (cols : List CCol) (n : Str) (call : Bool)
    (args : List CArg) (wh gb : Option CComma) (ob : Option (Str × Bool)) (lim : Option Int) :
    ∃ cols', outlineSelect (.mk cs ex all cols (.mk n call args) wh gb ob lim) = .mk n .query cols' ∧
      cols'.length = cols.length ∧
      ∀ (i : Nat) (k : List Comment) (b : CColB) (as_ : Str), cols[i]? = some (.mk k b as_) →
        ∃ o, cols'[i]? = some o ∧
          ((∃ q, b = .select q ∧ o = outlineSelect q) ∨
            ((∀ q, b ≠ .select q) ∧ o.kind = .column ∧ o.name = as_)) := by
  refine ⟨cols.map outlineCol, ?_, by simp, ?_⟩
  · simp only [outlineSelect, outlineCols_eq]
  · intro i k b as_ h
    refine ⟨outlineCol (.mk k b as_), by simp [h], ?_⟩
    cases b with
    | star => exact .inr ⟨fun q => by simp, by simp [outlineCol, OInfo.kind], by simp [outlineCol, OInfo.name]⟩
    | expr e => exact .inr ⟨fun q => by simp, by simp [outlineCol, OInfo.kind], by simp [outlineCol, OInfo.name]⟩
    | select q => exact .inl ⟨q, rfl, by simp [outlineCol]⟩

/-- C51: the outline of a statement is that of its query; a LET adds one entry with its name, and the
query it defines is the only child. -/
theorem C51_statement (cs : List Comment) (n op : Str) (called : Bool) (ps : List CLetParam) (q : CSelect) (e : CAnd) :
    outline (.query cs q) = outlineSelect q ∧
    (outline (.let_ cs n called ps op (.select q))).name = n ∧
    (outline (.let_ cs n called ps op (.select q))).kind = .let_ ∧
    (outline (.let_ cs n called ps op (.select q))).children = [outlineSelect q] ∧
    (outline (.let_ cs n called ps op (.expr e))).name = n ∧
    (outline (.let_ cs n called ps op (.expr e))).kind = .let_ ∧
    (outline (.let_ cs n called ps op (.expr e))).children.map OInfo.kind = [.query] := by
  refine ⟨?_, ?_, ?_, ?_, ?_, ?_, ?_⟩ <;> simp [outline, OInfo.name, OInfo.kind, OInfo.children]

/-- The names of the function entries of a list. -/
def fnNames (l : List OInfo) : List Str :=
  (l.filter fun o => o.kind = .function).map OInfo.name

theorem fnNames_top (l : List (Nat × Str)) :
    fnNames (top l) = (l.filter (fun p => p.1 == 0)).map Prod.snd := by
  unfold fnNames top
  rw [List.filter_map, List.map_map, List.filter_eq_self.2]
  · rfl
  · intro a _; rfl

/-- C51, calls (partial: calls in the arguments of other calls are missing, see
`C51_nested_refuted`): the children of a column, and of the value of a LET, are exactly the
function calls of the expression that stand outside sub-queries and outside the arguments of
other calls, in source order. -/
theorem C51_calls_partial (e : CAnd) (k cs : List Comment) (as_ n op : Str) (called : Bool)
    (ps : List CLetParam) :
    fnNames (outlineCol (.mk k (.expr e) as_)).children
        = ((callsAnd 0 e).filter (fun p => p.1 == 0)).map Prod.snd ∧
    (∃ v, outline (.let_ cs n called ps op (.expr e)) = .mk n .let_ [v] ∧
      fnNames v.children = ((callsAnd 0 e).filter (fun p => p.1 == 0)).map Prod.snd) := by
  refine ⟨?_, ⟨_, by rw [outline], ?_⟩⟩
  · simp only [outlineCol, OInfo.children, gAnd_eq, List.nil_append, fnNames_top]
  · simp only [OInfo.children, gAnd_eq, List.nil_append, fnNames_top]

/-- C51, complete case: without calls inside argument lists the outline has every call of the
expression outside sub-queries. -/
theorem C51_complete (e : CAnd) (k : List Comment) (as_ : Str)
    (h : ∀ p ∈ callsAnd 0 e, p.1 = 0) :
    fnNames (outlineCol (.mk k (.expr e) as_)).children = (callsAnd 0 e).map Prod.snd := by
  rw [(C51_calls_partial e k [] as_ [] [] false []).1, List.filter_eq_self.2]
  exact fun p hp => by simp [h p hp]

/-- An expression that is just a value. -/
def ofVal (b : CValB) : CAnd :=
  .mk [] (.mk [] (.cmp [] (.mk [] (.mk [] (.mk [] (.mk [] b) []) []) []) none) []) []

/-- A call. -/
def callE (n : Str) (ps : List CArg) : CAnd := ofVal (.sym (.mk [] n true ps))

/-- C51 refuted: `f(a=g())` calls `g`, which is not in the outline. -/
theorem C51_nested_refuted :
    ∃ e : CAnd, (callsAnd 0 e).map Prod.snd = [bs "f", bs "g"] ∧
      fnNames (outlineCol (.mk [] (.expr e) [])).children = [bs "f"] :=
  ⟨callE (bs "f") [.mk [] (bs "a") (.expr (callE (bs "g") []))], by decide +kernel, by decide +kernel⟩

/-- C51 refuted: the outline of `SELECT a FROM x WHERE f()` is the outline of
`SELECT a FROM x`: calls in WHERE (and in GROUP BY and in the arguments of the source) are
missing. -/
theorem C51_where_refuted (cs : List Comment) (ex all : Bool) (cols : List CCol) (n : Str)
    (call call' : Bool) (args args' : List CArg) (wh gb wh' gb' : Option CComma)
    (ob : Option (Str × Bool)) (lim : Option Int) :
    outlineSelect (.mk cs ex all cols (.mk n call args) wh gb ob lim)
      = outlineSelect (.mk cs ex all cols (.mk n call' args') wh' gb' ob lim) := by
  simp only [outlineSelect]

/-- Non vacuity: `f() AND g()[h()]`. -/
example :
    let v (n : Str) : CVal := .mk [] (.sym (.mk [] n true []))
    let e : CAnd := .mk [] (.mk [] (.cmp [] (.mk [] (.mk [] (.mk [] (v (bs "f")) []) []) []) none) [])
      [.mk (bs "AND") (.mk [] (.cmp [] (.mk [] (.mk [] (.mk [] (v (bs "g")) [.index (v (bs "h"))]) []) []) none) [])]
    (callsAnd 0 e) = [(0, bs "f"), (0, bs "g"), (0, bs "h")] ∧
      fnNames (outlineCol (.mk [] (.expr e) (bs "x"))).children = [bs "f", bs "g", bs "h"] := by
  decide +kernel

end Vfilter.Fmt
