import Verif.Format
/-!
# The formatter: what every layout has in common (C50)
-/

set_option linter.all false

namespace Vfilter.Fmt

/-- The fragments that are not blank, without surrounding blanks. -/
def nb (l : List Str) : List Str := (l.map trim).filter (fun s => !s.isEmpty)

theorem nb_append (a b : List Str) : nb (a ++ b) = nb a ++ nb b := by simp [nb]

theorem dropWhile_blank : ∀ (l : Str), (∀ c ∈ l, isBlank c = true) → l.dropWhile isBlank = []
  | [], _ => rfl
  | c :: cs, h => by
    rw [List.dropWhile_cons_of_pos (h c (by simp))]
    exact dropWhile_blank cs (fun c hc => h c (by simp [hc]))

theorem trim_spaces (n : Nat) : trim (spaces n) = [] := by
  unfold trim spaces
  rw [dropWhile_blank (List.replicate n 32)
    (fun c hc => by have := List.eq_of_mem_replicate hc; subst this; decide)]
  rfl

theorem nb_spaces (n : Nat) : nb [spaces n] = [] := by simp [nb, trim_spaces]

theorem nb_nl : nb [[10]] = [] := by decide

/-- The visit adds exactly the non blank fragments `ts`, whatever the visitor. -/
def Emits (f : Vis → Vis) (ts : List Str) : Prop := ∀ v, nb (f v).frags = nb v.frags ++ ts

theorem Emits.comp {f g : Vis → Vis} {a b : List Str} (hf : Emits f a) (hg : Emits g b) :
    Emits (fun v => g (f v)) (a ++ b) := fun v => by
  rw [hg, hf, List.append_assoc]

theorem Emits.to {f g : Vis → Vis} {a b : List Str} (h : Emits f a) (e : ∀ v, g v = f v)
    (e2 : a = b := by simp) : Emits g b := fun v => by rw [e, ← e2]; exact h v

theorem emits_id : Emits id [] := fun v => by simp

theorem emits_self : Emits (fun v => v) [] := emits_id

theorem emits_push (s : Str) : Emits (push s) (nb [s]) := fun v => by
  show nb (v.frags ++ [s]) = _
  rw [nb_append]

theorem emits_pushes : ∀ ss : List Str, Emits (pushes ss) (nb ss)
  | [], v => by simp [pushes, nb]
  | s :: ss, v => by
    show nb (pushes ss (push s v)).frags = _
    rw [emits_pushes ss, emits_push, List.append_assoc, ← nb_append]
    rfl

theorem emits_pop {v : Vis} (h : trim (v.frags.getLast?.getD []) = []) :
    nb (pop v).frags = nb v.frags := by
  unfold pop
  rcases hl : v.frags.getLast? with _ | s
  · rfl
  · have : v.frags = v.frags.dropLast ++ [s] := by
      obtain ⟨ys, hy⟩ := List.getLast?_eq_some_iff.1 hl
      rw [hy, List.dropLast_concat]
    rw [hl] at h
    conv => rhs; rw [this]
    rw [nb_append]
    have : nb [s] = [] := by simp [nb, show trim s = [] from h]
    simp [this]

theorem emits_lineBreak : Emits lineBreak [] := fun v => by
  unfold lineBreak
  simp only [List.append_nil]
  split
  · split
    · rfl
    · split
      · rfl
      · rw [emits_push]
        have : nb [bs " "] = [] := by decide
        simp [this]
  · rw [emits_push, nb_spaces]
    simp only [List.append_nil]
    split
    · rename_i h
      show nb ((pop v).frags ++ [[10]]) = _
      rw [nb_append, nb_nl, emits_pop h]
      simp
    · show nb (v.frags ++ [[10]]) = _
      rw [nb_append, nb_nl]
      simp

theorem emits_pushIndent : Emits pushIndent [] := fun v => by simp [pushIndent]
theorem emits_indentIn : Emits indentIn [] := fun v => by simp [indentIn]
theorem emits_popIndent : Emits popIndent [] := fun v => by simp [popIndent]

theorem emits_popIndents : ∀ n, Emits (popIndents n) []
  | 0 => emits_id
  | n + 1 => emits_popIndent.comp (emits_popIndents n)

theorem emits_newLine (p : Nat) : Emits (newLine p) [] := fun v => by
  unfold newLine
  simp only [List.append_nil]
  split
  · show nb (v.frags ++ [[10]] ++ [spaces p]) = _
    rw [nb_append, nb_append, nb_spaces, nb_nl]
    simp
  · rfl

theorem emits_site (c : CallSite) : Emits (site c) [] := fun v => by simp [site]

theorem emits_brk (b : Bool) : Emits (fun v => { v with breakLines := b }) [] := fun v => by simp

theorem Emits.ite {f g : Vis → Vis} {a : List Str} (c : Vis → Prop) [DecidablePred c]
    (hf : Emits f a) (hg : Emits g a) : Emits (fun v => if c v then f v else g v) a := fun v => by
  dsimp only
  split
  · exact hf v
  · exact hg v

theorem merge_frags (v w : Vis) : (v.merge w).frags = w.frags := rfl

theorem copy_frags (v : Vis) : v.copy.frags = v.frags := rfl

/-- Whichever trial is kept, it has the same non blank fragments. -/
theorem emits_abTest (better : Vis → Vis → Bool) {cb : Vis → Vis} {cbs : List (Vis → Vis)}
    {ts : List Str} (h : ∀ f ∈ cb :: cbs, Emits f ts) : Emits (abTest better (cb :: cbs)) ts := by
  intro v
  have h0 : nb (cb v.copy).frags = nb v.frags ++ ts := h cb (by simp) v.copy
  unfold abTest
  dsimp only
  split
  · rw [merge_frags, h0]
  · rw [merge_frags]
    have hrest : ∀ f ∈ cbs, Emits f ts := fun f hf => h f (by simp [hf])
    clear h
    generalize cb v.copy = r at h0
    induction cbs generalizing r with
    | nil => exact h0
    | cons f fs ih =>
      rw [List.foldl_cons]
      apply ih (fun g hg => hrest g (by simp [hg]))
      split
      · rw [merge_frags]; exact hrest f (by simp) v.copy
      · exact h0

/-- The text of a comment. -/
def cText : Comment → Str
  | .vql t => t
  | .line t => t
  | .multi t => t

theorem emits_comment (c : Comment) : Emits (visitComment c) (nb [cText c]) := by
  have note : ∀ t : Str, Emits (fun v : Vis =>
      if v.opts.collectComments then { v with comments := v.comments ++ [t] } else v) [] :=
    fun t v => by dsimp only; split <;> simp
  cases c with
  | vql t => exact (((note t).comp (emits_push t)).comp emits_lineBreak).to (fun v => rfl) (by simp [cText])
  | line t => exact (((note t).comp (emits_push t)).comp emits_lineBreak).to (fun v => rfl) (by simp [cText])
  | multi t =>
    exact (((((note t).comp (emits_newLine 0)).comp (emits_push t)).comp emits_lineBreak).comp
      emits_popIndent).to (fun v => rfl) (by simp [cText])

/-- Comment texts. -/
def tComments (cs : List Comment) : List Str := nb (cs.map cText)

theorem emits_comments : ∀ cs, Emits (visitComments cs) (tComments cs)
  | [] => fun v => by simp [visitComments, tComments, nb]
  | c :: cs => by
    have := (emits_comment c).comp (emits_comments cs)
    rw [show tComments (c :: cs) = nb [cText c] ++ tComments cs by
      unfold tComments; rw [← nb_append]; rfl]
    exact this

section
variable (num : Str → Str)

mutual
/-- The non blank fragments of an AND expression. -/
def tAnd : CAnd → List Str
  | .mk _ l rs => tOr l ++ tAndTs rs
def tAndTs : List CAndT → List Str
  | [] => []
  | .mk op t :: rs => nb [op] ++ tOr t ++ tAndTs rs
def tOr : COr → List Str
  | .mk cs l rs => tComments cs ++ tCond l ++ tOrTs rs
def tOrTs : List COrT → List Str
  | [] => []
  | .mk op t :: rs => nb [op] ++ tCondC t ++ tOrTs rs
def tCondC : CCond → List Str
  | .not cs c => tComments cs ++ [bs "NOT"] ++ tCond c
  | .cmp cs l r => tComments cs ++ tAdd l ++ tCmp r
def tCond : CCond → List Str
  | .not _ c => [bs "NOT"] ++ tCond c
  | .cmp _ l r => tAdd l ++ tCmp r
def tCmp : Option CCmpT → List Str
  | none => []
  | some (.mk op r) => nb [op] ++ tAdd r
def tAdd : CAdd → List Str
  | .mk cs l rs => tComments cs ++ tMul l ++ tAddTs rs
def tAddTs : List CAddT → List Str
  | [] => []
  | .mk op t :: rs => nb [op] ++ tMul t ++ tAddTs rs
def tMul : CMul → List Str
  | .mk cs l rs => tComments cs ++ tMember l ++ tMulTs rs
def tMulTs : List CMulT → List Str
  | [] => []
  | .mk op t :: rs => nb [op] ++ tVal t ++ tMulTs rs
def tMember : CMember → List Str
  | .mk cs l rs => tComments cs ++ tVal l ++ tMTerms rs
def tMTerms : List CMTerm → List Str
  | [] => []
  | .range i j :: rs => [bs "["] ++ tOptVal i ++ [bs ":"] ++ tOptVal j ++ [bs "]"] ++ tMTerms rs
  | .index i :: rs => [bs "["] ++ tVal i ++ [bs "]"] ++ tMTerms rs
  | .field n :: rs => [bs "."] ++ nb [n] ++ tMTerms rs
  | .empty :: rs => [bs "."] ++ tMTerms rs
def tOptVal : Option CVal → List Str
  | none => []
  | some x => tVal x
def tComma : CComma → List Str
  | .mk cs l rs => tComments cs ++ tAnd l ++ tCommaTs rs
def tCommaTs : List CCommaT → List Str
  | [] => []
  | .mk c1 c2 none :: rs => [bs ","] ++ tComments c1 ++ tComments c2 ++ tCommaTs rs
  | .mk c1 c2 (some t) :: rs =>
    [bs ","] ++ tComments c1 ++ tComments c2 ++ tAnd t ++ tCommaTs rs
def tVal : CVal → List Str
  | .mk cs b => tComments cs ++ tValB b
def tValB : CValB → List Str
  | .sym s => tSym s
  | .sub c => [bs "("] ++ tComma c ++ [bs ")"]
  | .str t => nb [t]
  | .num t => nb [num t]
  | .bool t => nb [t]
  | .null => [bs "NULL"]
def tSym : CSym → List Str
  | .mk cs n called ps =>
    tComments cs ++ nb [n] ++
      (if called = false ∧ ps.isEmpty then [] else
        if ps.isEmpty then [bs "()"] else [bs "("] ++ tArgs ps ++ [bs ")"])
def tArgs : List CArg → List Str
  | [] => []
  | a :: as => tArg a ++ (if as.isEmpty then [] else [bs ","]) ++ tArgs as
def tArg : CArg → List Str
  | .mk cs n r => tComments cs ++ tArgV n r
def tArgV (n : Str) : CArgV → List Str
  | .expr e => nb [n] ++ [bs "="] ++ tAnd e
  | .select q => nb [n] ++ [bs "={"] ++ tSelect q ++ [bs "}"]
  | .array c => nb [n] ++ [bs "=["] ++ tComma c ++ [bs "]"]
  | .empty => nb [n] ++ [bs "=[]"]
def tSelect : CSelect → List Str
  | .mk cs ex all cols from_ wh gb ob lim =>
    tComments cs ++ (if ex then [bs "EXPLAIN"] else []) ++ [bs "SELECT"] ++
      ((if all then [bs "*"] ++ (if cols.isEmpty then [] else [bs ","]) else []) ++ tCols cols) ++
      [bs "FROM"] ++ tPlugin from_ ++ tClause (bs "WHERE") wh ++ tClause (bs "GROUP BY") gb ++
      (match ob with
        | none => []
        | some (k, desc) => [bs "ORDER BY"] ++ nb [k] ++ (if desc then [bs "DESC"] else [])) ++
      (match lim with
        | none => []
        | some n => nb [bs "LIMIT " ++ intText n ++ bs " "])
def tClause (kw : Str) : Option CComma → List Str
  | none => []
  | some c => [kw] ++ tComma c
def tCols : List CCol → List Str
  | [] => []
  | c :: cs => tCol c ++ (if cs.isEmpty then [] else [bs ","]) ++ tCols cs
def tCol : CCol → List Str
  | .mk cs b as_ => tComments cs ++ tColB as_ b
def tColB (as_ : Str) : CColB → List Str
  | .star => [bs "*"]
  | .expr e => tAnd e ++ (if as_ ≠ [] then [bs "AS"] ++ nb [as_] else [])
  | .select q => [bs "{"] ++ tSelect q ++ [bs "}"] ++ (if as_ ≠ [] then [bs "AS"] ++ nb [as_] else [])
def tPlugin : CPlugin → List Str
  | .mk n call args =>
    nb [n] ++ (if call then
      if args.isEmpty then [bs "()"] else [bs "("] ++ tArgs args ++ [bs ")"] else [])
end

/-- The non blank fragments of LET parameters. -/
def tParams (all : List CLetParam) : List CLetParam → List Str
  | [] => []
  | p :: ps =>
    (match paramDefault all (paramName p) with
      | some a => tArg num a
      | none => nb [paramName p]) ++ (if ps.isEmpty then [] else [bs ","]) ++ tParams all ps

/-- The non blank fragments of a statement. -/
def tStmt : CStmt → List Str
  | .let_ cs n _ ps op b =>
    tComments cs ++ [bs "LET"] ++ nb [n] ++
      (if ps.isEmpty then [] else [bs "("] ++ tParams num ps ps ++ [bs ")"]) ++ nb [op] ++
      (match b with
        | .expr e => tAnd num e
        | .select q => tSelect num q)
  | .query cs q => tComments cs ++ tSelect num q

/-- The non blank fragments of a query file. -/
def tStmts : List CStmt → List Str
  | [] => []
  | s :: ss => tStmt num s ++ tStmts ss

end

/-- Push a keyword with blanks around it. -/
theorem emits_kw {s t : Str} (h : nb [s] = [t]) : Emits (push s) [t] := h ▸ emits_push s

theorem emits_op (op : Str) : Emits (pushes [bs " ", op, bs " "]) (nb [op]) := by
  have := emits_pushes [bs " ", op, bs " "]
  rw [show [bs " ", op, bs " "] = [bs " "] ++ ([op] ++ [bs " "]) from rfl, nb_append, nb_append,
    show nb [bs " "] = [] by decide] at this
  simpa using this

theorem emits_comma : Emits (pushes [bs ",", bs " "]) [bs ","] := by
  have := emits_pushes [bs ",", bs " "]
  rwa [show nb [bs ",", bs " "] = [bs ","] by decide] at this

theorem emits_sep {α : Type} (as : List α) :
    Emits (if as.isEmpty then id else pushes [bs ",", bs " "]) (if as.isEmpty then [] else [bs ","]) := by
  split
  · exact emits_id
  · exact emits_comma

theorem emits_as (a : Str) : Emits (pushes [bs " AS ", a]) ([bs "AS"] ++ nb [a]) := by
  have := emits_pushes [bs " AS ", a]
  rwa [show [bs " AS ", a] = [bs " AS "] ++ [a] from rfl, nb_append,
    show nb [bs " AS "] = [bs "AS"] by decide] at this

theorem emits_breakIfFar : Emits breakIfFar [] := fun v => by
  unfold breakIfFar
  split
  · exact emits_lineBreak v
  · simp

theorem emits_callLayouts (better : Vis → Vis → Bool) {f g : Vis → Vis} {ts : List Str}
    (hf : Emits f ts) (hg : Emits g ts) :
    Emits (callLayouts better f g) ([bs "("] ++ ts ++ [bs ")"]) := by
  have ho : Emits (push (bs "(")) [bs "("] := emits_kw (by decide)
  have hc : Emits (push (bs ")")) [bs ")"] := emits_kw (by decide)
  refine emits_abTest better fun k hk => ?_
  simp only [List.mem_cons, List.mem_nil_iff, or_false] at hk
  rcases hk with rfl | rfl | rfl
  · simpa using (((emits_brk false).comp ho).comp hf).comp hc
  · simpa using (((ho.comp emits_pushIndent).comp hg).comp hc).comp emits_popIndent
  · simpa using ((((ho.comp emits_indentIn).comp emits_lineBreak).comp hg).comp hc).comp
      emits_popIndent

theorem emits_starThen {all e : Bool} {f : Vis → Vis} {ts : List Str} (hf : Emits f ts) :
    Emits (starThen all e f)
      ((if all then [bs "*"] ++ (if e then [] else [bs ","]) else []) ++ ts) := by
  have hs : Emits (push (bs "*")) [bs "*"] := emits_kw (by decide)
  have : Emits (fun v => if all then
      let v := push (bs "*") v
      if e then v else pushes [bs ",", bs " "] v else v)
      (if all then [bs "*"] ++ (if e then [] else [bs ","]) else []) := by
    intro v
    cases all <;> cases e <;> simp
    · exact (hs.comp emits_comma) v
    · exact hs v
  exact this.comp hf

theorem emits_selectLayouts (better : Vis → Vis → Bool) {f : Vis → Vis} {ts : List Str}
    (hf : Emits f ts) : Emits (selectLayouts better f) ts := by
  refine emits_abTest better fun k hk => ?_
  simp only [List.mem_cons, List.mem_nil_iff, or_false] at hk
  have hb : Emits (push (bs "  ")) [] := by
    have := emits_push (bs "  "); rwa [show nb [bs "  "] = [] by decide] at this
  rcases hk with rfl | rfl
  · simpa using (emits_pushIndent.comp hf).comp emits_popIndent
  · simpa using (((((emits_newLine 2).comp emits_indentIn).comp hb).comp hf).comp
      emits_popIndent).comp emits_popIndent

theorem emits_blank2 : Emits (push (bs "  ")) [] := by
  have := emits_push (bs "  "); rwa [show nb [bs "  "] = [] by decide] at this

theorem emits_andStep (op : Str) : Emits (andStep op) (nb [op]) := by
  exact ((emits_lineBreak.comp (emits_op op)).comp emits_pushIndent).to (fun v => rfl)

section
variable (better : Vis → Vis → Bool) (num : Str → Str)

mutual
theorem emits_and : ∀ e : CAnd, Emits (fAnd better num e) (tAnd num e)
  | .mk cs l rs => by
    simpa [tAnd, fAnd] using ((emits_or l).comp (emits_andTs rs)).comp (emits_popIndents rs.length)
theorem emits_andTs : ∀ rs : List CAndT, Emits (fAndTs better num rs) (tAndTs num rs)
  | [] => by simpa [fAndTs, tAndTs] using emits_self
  | .mk op t :: rs => by
    simpa [tAndTs, fAndTs] using ((emits_andStep op).comp (emits_or t)).comp (emits_andTs rs)
theorem emits_or : ∀ e : COr, Emits (fOr better num e) (tOr num e)
  | .mk cs l rs => by
    simpa [tOr, fOr] using ((emits_comments cs).comp (emits_cond l)).comp (emits_orTs rs)
theorem emits_orTs : ∀ rs : List COrT, Emits (fOrTs better num rs) (tOrTs num rs)
  | [] => by simpa [fOrTs, tOrTs] using emits_self
  | .mk op t :: rs => by
    simpa [tOrTs, fOrTs] using ((emits_op op).comp (emits_condC t)).comp (emits_orTs rs)
theorem emits_condC : ∀ c : CCond, Emits (fCondC better num c) (tCondC num c)
  | .not cs c => by
    simpa [tCondC, fCondC] using ((emits_comments cs).comp
      (emits_kw (s := bs "NOT ") (t := bs "NOT") (by decide))).comp (emits_cond c)
  | .cmp cs l r => by
    simpa [tCondC, fCondC] using ((emits_comments cs).comp (emits_add l)).comp (emits_cmp r)
theorem emits_cond : ∀ c : CCond, Emits (fCond better num c) (tCond num c)
  | .not _ c => by
    simpa [tCond, fCond] using
      (emits_kw (s := bs "NOT ") (t := bs "NOT") (by decide)).comp (emits_cond c)
  | .cmp _ l r => by
    simpa [tCond, fCond] using (emits_add l).comp (emits_cmp r)
theorem emits_cmp : ∀ r : Option CCmpT, Emits (fCmp better num r) (tCmp num r)
  | none => by simpa [fCmp, tCmp] using emits_self
  | some (.mk op r) => by simpa [fCmp, tCmp] using (emits_op op).comp (emits_add r)
theorem emits_add : ∀ e : CAdd, Emits (fAdd better num e) (tAdd num e)
  | .mk cs l rs => by
    simpa [tAdd, fAdd] using ((emits_comments cs).comp (emits_mul l)).comp (emits_addTs rs)
theorem emits_addTs : ∀ rs : List CAddT, Emits (fAddTs better num rs) (tAddTs num rs)
  | [] => by simpa [fAddTs, tAddTs] using emits_self
  | .mk op t :: rs => by
    simpa [tAddTs, fAddTs] using ((emits_op op).comp (emits_mul t)).comp (emits_addTs rs)
theorem emits_mul : ∀ e : CMul, Emits (fMul better num e) (tMul num e)
  | .mk cs l rs => by
    simpa [tMul, fMul] using ((emits_comments cs).comp (emits_member l)).comp (emits_mulTs rs)
theorem emits_mulTs : ∀ rs : List CMulT, Emits (fMulTs better num rs) (tMulTs num rs)
  | [] => by simpa [fMulTs, tMulTs] using emits_self
  | .mk op t :: rs => by
    simpa [tMulTs, fMulTs] using ((emits_op op).comp (emits_val t)).comp (emits_mulTs rs)
theorem emits_member : ∀ e : CMember, Emits (fMember better num e) (tMember num e)
  | .mk cs l rs => by
    simpa [tMember, fMember] using ((emits_comments cs).comp (emits_val l)).comp (emits_mTerms rs)
theorem emits_mTerms : ∀ rs : List CMTerm, Emits (fMTerms better num rs) (tMTerms num rs)
  | [] => by simpa [fMTerms, tMTerms] using emits_self
  | .range i j :: rs => by
    simpa [tMTerms, fMTerms] using (((((emits_kw (s := bs "[") (t := bs "[") (by decide)).comp
      (emits_optVal i)).comp (emits_kw (s := bs ":") (t := bs ":") (by decide))).comp
      (emits_optVal j)).comp (emits_kw (s := bs "]") (t := bs "]") (by decide))).comp (emits_mTerms rs)
  | .index i :: rs => by
    simpa [tMTerms, fMTerms] using (((emits_kw (s := bs "[") (t := bs "[") (by decide)).comp
      (emits_val i)).comp (emits_kw (s := bs "]") (t := bs "]") (by decide))).comp (emits_mTerms rs)
  | .field n :: rs => by
    simpa [tMTerms, fMTerms] using ((emits_kw (s := bs ".") (t := bs ".") (by decide)).comp
      (emits_push n)).comp (emits_mTerms rs)
  | .empty :: rs => by
    simpa [tMTerms, fMTerms] using (emits_kw (s := bs ".") (t := bs ".") (by decide)).comp
      (emits_mTerms rs)
theorem emits_optVal : ∀ x : Option CVal, Emits (fOptVal better num x) (tOptVal num x)
  | none => by simpa [fOptVal, tOptVal] using emits_self
  | some x => by simpa [fOptVal, tOptVal] using emits_val x
theorem emits_commaE : ∀ e : CComma, Emits (fComma better num e) (tComma num e)
  | .mk cs l rs => by
    simpa [tComma, fComma] using ((emits_comments cs).comp (emits_and l)).comp (emits_commaTs rs)
theorem emits_commaTs : ∀ rs : List CCommaT, Emits (fCommaTs better num rs) (tCommaTs num rs)
  | [] => by simpa [fCommaTs, tCommaTs] using emits_self
  | .mk c1 c2 none :: rs => by
    simpa [tCommaTs, fCommaTs] using ((emits_comma.comp (emits_comments c1)).comp
      (emits_comments c2)).comp (emits_commaTs rs)
  | .mk c1 c2 (some t) :: rs => by
    simpa [tCommaTs, fCommaTs] using (((emits_comma.comp (emits_comments c1)).comp
      (emits_comments c2)).comp (emits_and t)).comp (emits_commaTs rs)
theorem emits_val : ∀ x : CVal, Emits (fVal better num x) (tVal num x)
  | .mk cs b => by simpa [tVal, fVal] using (emits_comments cs).comp (emits_valB b)
theorem emits_valB : ∀ x : CValB, Emits (fValB better num x) (tValB num x)
  | .sym s => by simpa [tValB, fValB] using emits_sym s
  | .sub c => by
    simpa [tValB, fValB] using ((((emits_kw (s := bs "(") (t := bs "(") (by decide)).comp
      emits_indentIn).comp (emits_commaE c)).comp
      (emits_kw (s := bs ")") (t := bs ")") (by decide))).comp emits_popIndent
  | .str t => by simpa [tValB, fValB] using emits_push t
  | .num t => by simpa [tValB, fValB] using emits_push (num t)
  | .bool t => by simpa [tValB, fValB] using emits_push t
  | .null => by simpa [tValB, fValB] using emits_kw (s := bs "NULL") (t := bs "NULL") (by decide)
theorem emits_sym : ∀ s : CSym, Emits (fSym better num s) (tSym num s)
  | .mk cs n called ps => by
    intro v
    have h1 := emits_comments cs v
    have hargs := emits_callLayouts better (emits_args1 ps) (emits_args2 ps true)
    unfold fSym tSym
    dsimp only
    generalize visitComments cs v = v1 at h1 ⊢
    have h2 : nb (push n (if v1.pos > v1.opts.indentWidth then lineBreak (indentIn v1) else v1)).frags
        = nb v.frags ++ (tComments cs ++ nb [n]) := by
      rw [emits_push]
      split
      · rw [emits_lineBreak, emits_indentIn, h1]; simp
      · rw [h1]; simp
    generalize push n (if v1.pos > v1.opts.indentWidth then lineBreak (indentIn v1) else v1) = v2
      at h2 ⊢
    have h3 : ∀ w : Vis, nb (if v1.pos > v1.opts.indentWidth then popIndent w else w).frags
        = nb w.frags := fun w => by
      split
      · have := emits_popIndent w; simpa using this
      · rfl
    rw [h3]
    clear h3
    split
    · rw [emits_site, h2]; simp
    · have h4 : nb (if called = true ∧ v2.opts.collectCallSites = true then
          site ⟨bs "function", n, ps.map argName⟩ v2 else v2).frags
          = nb v.frags ++ (tComments cs ++ nb [n]) := by
        split
        · rw [emits_site, h2]; simp
        · exact h2
      split
      · rw [emits_kw (s := bs "()") (t := bs "()") (by decide), h4]; simp
      · rw [hargs, h4]; simp
theorem emits_args1 : ∀ as : List CArg, Emits (fArgs1 better num as) (tArgs num as)
  | [] => by simpa [fArgs1, tArgs] using emits_self
  | a :: as => by
    simpa [fArgs1, tArgs] using ((emits_arg a).comp (emits_sep as)).comp (emits_args1 as)
theorem emits_args2 : ∀ (as : List CArg) (first : Bool), Emits (fArgs2 better num first as) (tArgs num as)
  | [], _ => by simpa [fArgs2, tArgs] using emits_self
  | a :: as, first => by
    have h0 : Emits (fun v => if first = true then v else lineBreak v) [] :=
      Emits.ite (fun _ => first = true) emits_id emits_lineBreak
    simpa [fArgs2, tArgs] using ((h0.comp (emits_arg a)).comp (emits_sep as)).comp
      (emits_args2 as false)
theorem emits_arg : ∀ a : CArg, Emits (fArg better num a) (tArg num a)
  | .mk cs n r => by
    have h0 : Emits (fun v : Vis => if cs.isEmpty then v
        else visitComments cs { v with hasComments := true, breakLines := true }) (tComments cs) := by
      intro v
      cases cs with
      | nil => simp [tComments, nb]
      | cons c cs =>
        have := emits_comments (c :: cs) { v with hasComments := true, breakLines := true }
        simpa using this
    simpa [fArg, tArg] using (emits_breakIfFar.comp h0).comp (emits_argV n r)
theorem emits_argV : ∀ (n : Str) (r : CArgV), Emits (fArgV better num n r) (tArgV num n r)
  | n, .expr e => by
    have h0 : Emits (pushes [n, bs "="]) (nb [n] ++ [bs "="]) := by
      have := emits_pushes [n, bs "="]
      rwa [show [n, bs "="] = [n] ++ [bs "="] from rfl, nb_append,
        show nb [bs "="] = [bs "="] by decide] at this
    simpa [fArgV, tArgV] using h0.comp (emits_and e)
  | n, .select q => by
    have h0 : Emits (pushes [n, bs "={"]) (nb [n] ++ [bs "={"]) := by
      have := emits_pushes [n, bs "={"]
      rwa [show [n, bs "={"] = [n] ++ [bs "={"] from rfl, nb_append,
        show nb [bs "={"] = [bs "={"] by decide] at this
    have h1 := Emits.ite (fun v : Vis => v.breakLines = true)
      ((((((((emits_newLine 2).comp emits_indentIn).comp emits_blank2).comp (emits_select q)).comp
        emits_popIndent).comp emits_lineBreak).comp
        (emits_kw (s := bs "}") (t := bs "}") (by decide))).comp emits_popIndent)
      (show Emits (fun v => push (bs " }") (fSelect better num q (push (bs " ") v))) _ by
        have hb : Emits (push (bs " ")) [] := by
          have := emits_push (bs " "); rwa [show nb [bs " "] = [] by decide] at this
        simpa using (hb.comp (emits_select q)).comp
          (emits_kw (s := bs " }") (t := bs "}") (by decide)))
    simpa [fArgV, tArgV] using h0.comp h1
  | n, .array c => by
    have h0 : Emits (pushes [n, bs "=["]) (nb [n] ++ [bs "=["]) := by
      have := emits_pushes [n, bs "=["]
      rwa [show [n, bs "=["] = [n] ++ [bs "=["] from rfl, nb_append,
        show nb [bs "=["] = [bs "=["] by decide] at this
    simpa [fArgV, tArgV] using (h0.comp (emits_commaE c)).comp
      (emits_kw (s := bs "]") (t := bs "]") (by decide))
  | n, .empty => by
    have := emits_pushes [n, bs "=[]"]
    rw [show [n, bs "=[]"] = [n] ++ [bs "=[]"] from rfl, nb_append,
        show nb [bs "=[]"] = [bs "=[]"] by decide] at this
    simpa [fArgV, tArgV] using this
theorem emits_select : ∀ q : CSelect, Emits (fSelect better num q) (tSelect num q)
  | .mk cs ex all cols from_ wh gb ob lim => by
    have h1 : Emits (fun v => if ex = true then push (bs "EXPLAIN ") v else v)
        (if ex then [bs "EXPLAIN"] else []) := by
      cases ex
      · simpa using emits_self
      · simpa using emits_kw (s := bs "EXPLAIN ") (t := bs "EXPLAIN") (by decide)
    have h2 := emits_selectLayouts better
      (emits_starThen (all := all) (e := cols.isEmpty) (emits_colList cols 0))
    have h3 : Emits (fun v => match ob with
      | none => v
      | some (k, desc) =>
        let v := pushes [bs "ORDER BY ", k] (lineBreak v)
        if desc then push (bs " DESC ") v else v) (match ob with
        | none => []
        | some (k, desc) => [bs "ORDER BY"] ++ nb [k] ++ (if desc then [bs "DESC"] else [])) := by
      rcases ob with _ | ⟨k, desc⟩
      · exact emits_id
      · have h0 : Emits (pushes [bs "ORDER BY ", k]) ([bs "ORDER BY"] ++ nb [k]) := by
          have := emits_pushes [bs "ORDER BY ", k]
          rwa [show [bs "ORDER BY ", k] = [bs "ORDER BY "] ++ [k] from rfl, nb_append,
            show nb [bs "ORDER BY "] = [bs "ORDER BY"] by decide] at this
        cases desc
        · simpa using emits_lineBreak.comp h0
        · simpa using (emits_lineBreak.comp h0).comp
            (emits_kw (s := bs " DESC ") (t := bs "DESC") (by decide))
    have h4 : Emits (fun v => match lim with
      | none => v
      | some n => push (bs "LIMIT " ++ intText n ++ bs " ") (lineBreak v)) (match lim with
        | none => []
        | some n => nb [bs "LIMIT " ++ intText n ++ bs " "]) := by
      rcases lim with _ | n
      · exact emits_id
      · simpa using emits_lineBreak.comp (emits_push (bs "LIMIT " ++ intText n ++ bs " "))
    have h5 : Emits (fun v => match gb with | none => v | some _ => popIndent v) [] := by
      rcases gb with _ | g
      · exact emits_id
      · exact emits_popIndent
    have := (((((((((((emits_comments cs).comp h1).comp
      (emits_kw (s := bs "SELECT ") (t := bs "SELECT") (by decide))).comp h2).comp
      emits_lineBreak).comp (emits_kw (s := bs "FROM ") (t := bs "FROM") (by decide))).comp
      (emits_plugin from_)).comp (emits_clause (bs "WHERE ") (bs "WHERE") (by decide) wh)).comp
      (emits_group gb)).comp h3).comp h4).comp h5
    exact this.to (fun v => by
      rcases ob with _ | ⟨k, d⟩ <;> rcases lim with _ | n <;> rcases gb with _ | g <;> rfl) (by simp [tSelect])
theorem emits_clause : ∀ (kw t : Str) (hk : nb [kw] = [t]) (c : Option CComma),
    Emits (fClause better num kw c) (tClause num t c)
  | kw, t, hk, none => by simpa [fClause, tClause] using emits_self
  | kw, t, hk, some c => by
    simpa [fClause, tClause] using (emits_lineBreak.comp (emits_kw hk)).comp (emits_commaE c)
theorem emits_group : ∀ (c : Option CComma),
    Emits (fGroup better num c) (tClause num (bs "GROUP BY") c)
  | none => by simpa [fGroup, tClause] using emits_self
  | some c => by
    simpa [fGroup, tClause] using ((emits_lineBreak.comp
      (emits_kw (s := bs "GROUP BY ") (t := bs "GROUP BY") (by decide))).comp
      emits_pushIndent).comp (emits_commaE c)
theorem emits_colList : ∀ (cs : List CCol) (i : Nat), Emits (fColList better num i cs) (tCols num cs)
  | [], _ => by simpa [fColList, tCols] using emits_self
  | c :: cs, i => by
    have h0 : Emits (if cs.isEmpty then id else fun v => lineBreak (pushes [bs ",", bs " "] v))
        (if cs.isEmpty then [] else [bs ","]) := by
      split
      · exact emits_id
      · simpa using emits_comma.comp emits_lineBreak
    simpa [fColList, tCols] using ((emits_col c i).comp h0).comp (emits_colList cs (i + 1))
theorem emits_col : ∀ (c : CCol) (i : Nat), Emits (fCol better num i c) (tCol num c)
  | .mk cs b as_, i => by
    simpa [fCol, tCol] using (emits_comments cs).comp (emits_colB b i as_)
theorem emits_colB : ∀ (b : CColB) (i : Nat) (as_ : Str),
    Emits (fColB better num i as_ b) (tColB num as_ b)
  | .star, i, as_ => by
    simpa [fColB, tColB] using emits_kw (s := bs "*") (t := bs "*") (by decide)
  | .expr e, i, as_ => by
    intro v
    unfold fColB tColB
    by_cases h : as_ = []
    · subst h
      simp only [ne_eq, not_true_eq_false, if_false, List.append_nil]
      refine emits_abTest better (fun k hk => ?_) v
      simp only [List.mem_cons, List.mem_nil_iff, or_false] at hk
      rcases hk with rfl | rfl
      · simpa using (emits_brk false).comp (emits_and e)
      · simpa using (Emits.ite (fun v => lineSpace v = false) emits_lineBreak emits_id).comp
          (emits_and e)
    · simp only [ne_eq, h, not_false_eq_true, if_true]
      refine emits_abTest better (fun k hk => ?_) v
      simp only [List.mem_cons, List.mem_nil_iff, or_false] at hk
      rcases hk with rfl | rfl
      · simpa using ((emits_brk false).comp (emits_and e)).comp (emits_as as_)
      · simpa using ((Emits.ite (fun v => i > 0 ∧ lineSpace v = false) emits_lineBreak emits_id).comp
          (emits_and e)).comp (emits_as as_)
  | .select q, i, as_ => by
    have h0 : Emits (pushes [bs "{", bs " "]) [bs "{"] := by
      have := emits_pushes [bs "{", bs " "]
      rwa [show nb [bs "{", bs " "] = [bs "{"] by decide] at this
    have h1 := ((((emits_newLine 2).comp emits_indentIn).comp emits_blank2).comp (emits_select q)).comp
        emits_lineBreak |>.comp (emits_kw (s := bs "}") (t := bs "}") (by decide))
    have h2 : Emits (fun v => push (bs " }") (fSelect better num q v)) (tSelect num q ++ [bs "}"]) :=
      (emits_select q).comp (emits_kw (s := bs " }") (t := bs "}") (by decide))
    have h3 : Emits (fun v => if as_ ≠ [] then pushes [bs " AS ", as_] v else v)
        (if as_ ≠ [] then [bs "AS"] ++ nb [as_] else []) := by
      by_cases h : as_ = []
      · simpa [h] using emits_self
      · simpa [h] using emits_as as_
    intro v
    unfold fColB tColB
    have e0 := h0 v
    dsimp only
    generalize pushes [bs "{", bs " "] v = v1 at e0 ⊢
    cases hb : v1.breakLines
    · simp only [Bool.false_eq_true, if_false]
      have := (h2.comp h3) v1
      simp only [e0] at this
      simpa using this
    · simp only [if_true]
      have := (((h1.comp h3).comp emits_popIndent).comp emits_popIndent) v1
      simp only [e0] at this
      simpa using this
theorem emits_plugin : ∀ p : CPlugin, Emits (fPlugin better num p) (tPlugin num p)
  | .mk n call args => by
    intro v
    have hargs := emits_callLayouts better (emits_args1 args) (emits_args2 args true)
    have e0 := emits_push n v
    unfold fPlugin tPlugin
    dsimp only
    generalize push n v = v1 at e0 ⊢
    have hs : ∀ c, nb (if v1.opts.collectCallSites = true then site c v1 else v1).frags
        = nb v1.frags := fun c => by
      split
      · have := emits_site c v1; simpa using this
      · rfl
    cases call
    · simp only [Bool.false_eq_true, if_false]
      rw [hs, e0]; simp
    · simp only [if_true]
      split
      · rw [emits_kw (s := bs "()") (t := bs "()") (by decide), hs, e0]; simp
      · rw [hargs, hs, e0]; simp
end

theorem emits_params (all : List CLetParam) : ∀ ps : List CLetParam,
    Emits (fParams better num all ps) (tParams num all ps)
  | [] => by simpa [fParams, tParams] using emits_self
  | p :: ps => by
    have h0 : Emits (fun v => match paramDefault all (paramName p) with
      | some a => fArg better num a v
      | none => push (paramName p) v) (match paramDefault all (paramName p) with
      | some a => tArg num a
      | none => nb [paramName p]) := by
      cases paramDefault all (paramName p) with
      | none => exact emits_push _
      | some a => exact emits_arg better num a
    have h1 : Emits (fun v => if ps.isEmpty then v else pushes [bs ",", bs " "] v)
        (if ps.isEmpty then [] else [bs ","]) := by
      cases ps with
      | nil => exact emits_id
      | cons p ps => exact emits_comma
    exact ((h0.comp h1).comp (emits_params all ps)).to (fun v => by
      rw [fParams]; cases paramDefault all (paramName p) <;> rfl)
      (by simp [tParams])

theorem emits_stmtEnd : Emits stmtEnd [] := fun v => emits_lineBreak v

theorem emits_stmt : ∀ s : CStmt, Emits (fStmt better num s) (tStmt num s)
  | .query cs q => by
    exact (((emits_comments cs).comp (emits_select better num q)).comp
      emits_stmtEnd).to (fun v => by simp only [fStmt]) (by simp [tStmt])
  | .let_ cs n called ps op b => by
    have h0 : Emits (pushes [bs "LET ", n]) ([bs "LET"] ++ nb [n]) := by
      have := emits_pushes [bs "LET ", n]
      rwa [show [bs "LET ", n] = [bs "LET "] ++ [n] from rfl, nb_append,
        show nb [bs "LET "] = [bs "LET"] by decide] at this
    have h1 : Emits (fun v => if ps.isEmpty then v
      else push (bs ")") (fParams better num ps ps (push (bs "(") v)))
        (if ps.isEmpty then [] else [bs "("] ++ tParams num ps ps ++ [bs ")"]) := by
      split
      · exact emits_id
      · exact ((emits_kw (s := bs "(") (t := bs "(") (by decide)).comp
          (emits_params better num ps ps)).comp (emits_kw (s := bs ")") (t := bs ")") (by decide))
    have h2 : Emits (fun v => match b with
      | .expr e => fAnd better num e v
      | .select q => fSelect better num q v) (match b with
        | .expr e => tAnd num e
        | .select q => tSelect num q) := by
      cases b with
      | expr e => exact emits_and better num e
      | select q => exact emits_select better num q
    have := (((((((emits_comments cs).comp h0).comp h1).comp (emits_op op)).comp emits_indentIn).comp
      h2).comp emits_popIndent).comp emits_stmtEnd
    exact this.to (fun v => by cases b <;> rfl) (by simp [tStmt])

theorem emits_stmts : ∀ ss : List CStmt, Emits (fStmts better num ss) (tStmts num ss)
  | [] => by simpa [fStmts, tStmts] using emits_self
  | s :: ss => by
    simpa [fStmts, tStmts] using ((emits_stmt better num s).comp emits_lineBreak).comp (emits_stmts ss)

end

/-- C50: the sequence of non blank fragments (without the blanks around them) a visitor ends up
with depends neither on the way trial layouts are compared, nor on its options, line breaking,
indentation or cursor: two visitors that start with the same non blank fragments end with the
same. -/
theorem C50_layout (b b' : Vis → Vis → Bool) (num : Str → Str) (ss : List CStmt) (v v' : Vis)
    (h : nb v.frags = nb v'.frags) :
    nb (fStmts b num ss v).frags = nb (fStmts b' num ss v').frags := by
  rw [emits_stmts, emits_stmts, h]

/-- C50 for the other things `FormatToString` is called with: a statement, a query, an
expression. -/
theorem C50_parts (b b' : Vis → Vis → Bool) (num : Str → Str) (v v' : Vis)
    (h : nb v.frags = nb v'.frags) :
    (∀ s : CStmt, nb (fStmt b num s v).frags = nb (fStmt b' num s v').frags) ∧
    (∀ q : CSelect, nb (fSelect b num q v).frags = nb (fSelect b' num q v').frags) ∧
    (∀ e : CAnd, nb (fAnd b num e v).frags = nb (fAnd b' num e v').frags) :=
  ⟨fun s => by rw [emits_stmt, emits_stmt, h], fun q => by rw [emits_select, emits_select, h],
    fun e => by rw [emits_and, emits_and, h]⟩

/-- C50, step by step: visiting a statement never removes or changes a non blank fragment that is
already there, it adds its own behind them. -/
theorem C50_appends (b : Vis → Vis → Bool) (num : Str → Str) (ss : List CStmt) :
    ∃ ts, ∀ v, nb (fStmts b num ss v).frags = nb v.frags ++ ts :=
  ⟨_, emits_stmts b num ss⟩

/-- Text without its blanks. -/
def dense (s : Str) : Str := s.filter fun c => !isBlank c

theorem dense_append (a b : Str) : dense (a ++ b) = dense a ++ dense b := by simp [dense]

theorem dense_dropWhile (s : Str) : dense (s.dropWhile isBlank) = dense s := by
  induction s with
  | nil => rfl
  | cons c s ih =>
    rw [List.dropWhile_cons]
    split
    · rename_i h; rw [ih]; simp [dense, h]
    · rfl

theorem dense_reverse (s : Str) : dense s.reverse = (dense s).reverse := by simp [dense]

theorem dense_trim (s : Str) : dense (trim s) = dense s := by
  unfold trim
  rw [dense_reverse, dense_dropWhile, dense_reverse, List.reverse_reverse, dense_dropWhile]

theorem dense_text : ∀ l : List Str, dense l.flatten = ((nb l).map dense).flatten
  | [] => rfl
  | s :: l => by
    rw [List.flatten_cons, dense_append, dense_text l,
      show nb (s :: l) = nb [s] ++ nb l from nb_append [s] l, List.map_append, List.flatten_append]
    congr 1
    by_cases h : trim s = []
    · rw [← dense_trim s, h]; simp [nb, h, dense]
    · simp [nb, h, dense_trim]

/-- C50, text: two layouts of the same statements differ in blanks only. -/
theorem C50_text (b b' : Vis → Vis → Bool) (num : Str → Str) (ss : List CStmt) (o o' : Opts)
    (brk brk' : Bool) :
    dense (fStmts b num ss (Vis.new o brk)).text = dense (fStmts b' num ss (Vis.new o' brk')).text := by
  unfold Vis.text
  rw [dense_text, dense_text, C50_layout b b' num ss (Vis.new o brk) (Vis.new o' brk') rfl]

/-! ### Witnesses -/

/-- An expression that is just a value. -/
def valE (b : CValB) : CAnd :=
  .mk [] (.mk [] (.cmp [] (.mk [] (.mk [] (.mk [] (.mk [] b) []) []) []) none) []) []

/-- A name. -/
def symE (n : Str) : CAnd := valE (.sym (.mk [] n false []))

/-- `SELECT f(a={ SELECT x FROM y }, b=z) AS c FROM s` -/
def sampleQ : CSelect :=
  .mk [] false false
    [.mk [] (.expr (valE (.sym (.mk [] (bs "f") true
      [.mk [] (bs "a") (.select (.mk [] false false [.mk [] (.expr (symE (bs "x"))) []]
        (.mk (bs "y") false []) none none none none)),
       .mk [] (bs "b") (.expr (symE (bs "z")))])))) (bs "c")]
    (.mk (bs "s") false []) none none none none

/-- Three layouts of one query: they differ in blanks and line breaks only. -/
example :
    (fSelect isBetter id sampleQ (Vis.new toStringOpts false)).text =
      bs "SELECT f(a={ SELECT x FROM y }, b=z) AS c FROM s" ∧
    (fSelect isBetter id sampleQ (Vis.new defaultOpts true)).text =
      bs "SELECT f(a={ SELECT x FROM y }, b=z) AS c\nFROM s" ∧
    (fSelect isBetter id sampleQ (Vis.new ⟨50, 20, false, false⟩ true)).text =
      bs "SELECT f(a={\n    SELECT x\n    FROM y\n  },\n         b=z) AS c\nFROM s" := by
  decide +kernel

end Vfilter.Fmt
