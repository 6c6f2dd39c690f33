import Verif.RoundLex
/-!
# What `FormatToString` prints

Without line breaking the visitor appends the items of the tree to its text.
-/

set_option linter.all false

namespace Vfilter.Fmt

/-- The last fragment. -/
def lastFrag (v : Vis) : Str := v.frags.getLast?.getD []

/-- No line breaking. -/
structure Pl (v : Vis) : Prop where
  brk : v.breakLines = false
  ind : v.opts.indentWidth = 0

/-- A line break adds nothing here. -/
def Tight (v : Vis) : Prop :=
  v.pos = 0 ∨ tightAfter.contains (lastFrag v) = true ∨ (lastFrag v).getLast? = some 32

/-- `w` is `v` with `s` appended; the last fragment satisfies `P`. -/
structure Out (v w : Vis) (s : Str) (P : Str → Prop) : Prop where
  brk : w.breakLines = false
  opts : w.opts = v.opts
  text : w.text = v.text ++ s
  last : P (lastFrag w)

theorem Out.pl {v w : Vis} {s : Str} {P : Str → Prop} (h : Out v w s P) (hv : Pl v) : Pl w :=
  ⟨h.brk, by rw [h.opts]; exact hv.ind⟩

theorem Out.trans {v w x : Vis} {s t : Str} {P Q : Str → Prop} (h : Out v w s P) (h2 : Out w x t Q) :
    Out v x (s ++ t) Q :=
  ⟨h2.brk, h2.opts.trans h.opts, by rw [h2.text, h.text, List.append_assoc], h2.last⟩

theorem Out.imp {v w : Vis} {s : Str} {P Q : Str → Prop} (h : Out v w s P) (i : ∀ f, P f → Q f) :
    Out v w s Q := ⟨h.brk, h.opts, h.text, i _ h.last⟩

theorem Out.eq {v w : Vis} {s t : Str} {P : Str → Prop} (h : Out v w s P) (e : s = t) :
    Out v w t P := e ▸ h

theorem Out.refl {v : Vis} {P : Str → Prop} (hv : v.breakLines = false) (h : P (lastFrag v)) :
    Out v v [] P := ⟨hv, rfl, by simp, h⟩

theorem lastFrag_push (s : Str) (v : Vis) : lastFrag (push s v) = s := by simp [lastFrag, push]

theorem out_push {v : Vis} (s : Str) (hv : v.breakLines = false) : Out v (push s v) s (· = s) :=
  ⟨hv, rfl, by simp [Vis.text, push], lastFrag_push s v⟩

theorem out_pushes {v : Vis} (hv : v.breakLines = false) : ∀ (a : List Str) (s : Str),
    Out v (pushes (a ++ [s]) v) (a.flatten ++ s) (· = s)
  | [], s => by simpa [pushes] using out_push s hv
  | a :: as, s => by
    have h1 := out_push a hv
    have h2 := out_pushes (v := push a v) h1.brk as s
    have := h1.trans h2
    simpa [pushes] using this

theorem Out.popIndent {v w : Vis} {s : Str} {P : Str → Prop} (h : Out v w s P) :
    Out v (popIndent w) s P := ⟨h.brk, h.opts, h.text, h.last⟩

theorem Out.popIndents {v : Vis} {s : Str} {P : Str → Prop} : ∀ (n : Nat) {w : Vis},
    Out v w s P → Out v (popIndents n w) s P
  | 0, w, h => h
  | n + 1, w, h => Out.popIndents n h.popIndent

/-- `abTest` without line breaking. -/
theorem out_abTest {b : Vis → Vis → Bool} {cb : Vis → Vis} {cbs : List (Vis → Vis)} {v : Vis}
    {s : Str} {P : Str → Prop} (hv : v.breakLines = false) (h : Out v.copy (cb v.copy) s P) :
    Out v (abTest b (cb :: cbs) v) s P := by
  unfold abTest
  simp only [hv, Bool.not_false, if_true]
  exact ⟨hv, rfl, h.text, h.last⟩

theorem copy_eta {v : Vis} (hv : v.breakLines = false) : { v with breakLines := false } = v := by
  cases v; simp only at hv; subst hv; rfl

theorem tight_lineBreak {v : Vis} (hv : v.breakLines = false) (h : tightAfter.contains (lastFrag v) = true ∨
    (lastFrag v).getLast? = some 32) : lineBreak v = v := by
  unfold lineBreak
  simp only [hv, Bool.not_false, if_true]
  change (if tightAfter.contains (lastFrag v) = true then v else
    if (lastFrag v).getLast? = some 32 then v else push (bs " ") v) = v
  rcases h with h | h
  · rw [if_pos h]
  · split
    · rfl
    · rfl

theorem solid_lineBreak {v : Vis} (hv : v.breakLines = false) (h : Solid (lastFrag v)) :
    lineBreak v = push (bs " ") v := by
  unfold lineBreak
  simp only [hv, Bool.not_false, if_true]
  change (if tightAfter.contains (lastFrag v) = true then v else
    if (lastFrag v).getLast? = some 32 then v else push (bs " ") v) = push (bs " ") v
  obtain ⟨⟨c, hc, hb⟩, ht⟩ := h
  rw [if_neg (by rw [ht]; decide), if_neg]
  rw [hc]
  rintro ⟨rfl⟩
  exact absurd hb (by decide)

theorem tight_far {v : Vis} (hv : Pl v) (h : Tight v) : breakIfFar v = v := by
  unfold breakIfFar
  split
  · rename_i hp
    rcases h with h | h
    · omega
    · exact tight_lineBreak hv.brk h
  · rfl

/-- The end of a list: solid, or a blank if there is a gap. -/
def Endy (g : List Item) (f : Str) : Prop := if g = [] then Solid f else f.getLast? = some 32

theorem endy_lineBreak {v w : Vis} {s : Str} {g : List Item} (hg : g = [] ∨ g = [none])
    (h : Out v w (s ++ render g) (Endy g)) :
    Out v (lineBreak w) (s ++ [32]) (fun f => f.getLast? = some 32) := by
  rcases hg with rfl | rfl
  · have hs : Solid (lastFrag w) := h.last
    rw [solid_lineBreak h.brk hs]
    have := (h.trans (out_push (bs " ") h.brk)).imp (Q := fun f => f.getLast? = some 32)
      (fun f hf => by rw [hf]; rfl)
    exact this.eq (by simp [render, show bs " " = [32] from rfl])
  · have hs : (lastFrag w).getLast? = some 32 := h.last
    rw [tight_lineBreak h.brk (.inr hs)]
    exact ⟨h.brk, h.opts, h.text, hs⟩

theorem tight_sp {w : Vis} (h : (lastFrag w).getLast? = some 32) : Tight w := .inr (.inr h)

theorem solid_lit (f : Str) (c : UInt8) (h : f.getLast? = some c := by rfl)
    (hb : isBlank c = false := by rfl) (ht : tightAfter.contains f = false := by decide) : Solid f :=
  ⟨⟨c, h, hb⟩, ht⟩

theorem commaGap_cases (c : CComma) : commaGap c = [] ∨ commaGap c = [none] := by
  obtain ⟨cs, l, rs⟩ := c
  simp only [commaGap]
  cases bareEnd rs
  · exact .inl rfl
  · exact .inr rfl

theorem selectGap_cases (q : CSelect) : selectGap q = [] ∨ selectGap q = [none] := by
  obtain ⟨cs, ex, all, cols, fr, wh, gb, ob, lim⟩ := q
  unfold selectGap
  cases lim with
  | some n => exact .inr rfl
  | none =>
    rcases ob with _ | ⟨k, _ | _⟩
    · rcases gb with _ | c
      · rcases wh with _ | c
        · exact .inl rfl
        · exact commaGap_cases c
      · exact commaGap_cases c
    · exact .inl rfl
    · exact .inr rfl

/-- Push a closing text: whatever the gap, it is solid. -/
theorem Out.close {v w : Vis} {s : Str} {P : Str → Prop} (h : Out v w s P) (f : Str) (hf : Solid f) :
    Out v (push f w) (s ++ f) Solid := (h.trans (out_push f h.brk)).imp (fun g hg => hg ▸ hf)

/-- A blank, an operator, a blank. -/
theorem Out.binop {v w : Vis} {s : Str} {P : Str → Prop} (h : Out v w s P) (op : Str) :
    Out v (pushes [bs " ", op, bs " "] w) (s ++ (32 :: (op ++ [32]))) (fun f => f.getLast? = some 32) := by
  have := (h.trans (out_pushes h.brk [bs " ", op] (bs " "))).imp (Q := fun f => f.getLast? = some 32)
    (fun f hf => by rw [hf]; rfl)
  exact this.eq (by simp [show bs " " = [32] from rfl])

theorem Out.comma {v w : Vis} {s : Str} {P : Str → Prop} (h : Out v w s P) :
    Out v (pushes [bs ",", bs " "] w) (s ++ [44, 32]) (fun f => f = bs " ") := by
  have := h.trans (out_pushes h.brk [bs ","] (bs " "))
  exact this.eq (by simp [show bs " " = [32] from rfl, show bs "," = [44] from rfl])

theorem andTok_text (op : Str) : (andTok op).text = op := by unfold andTok; split <;> rfl
theorem orTok_text (op : Str) : (orTok op).text = op := by unfold orTok; split <;> rfl
theorem cmpTok_text (op : Str) : (cmpTok op).text = op := by unfold cmpTok; split <;> rfl
theorem strTok_text (op : Str) : (strTok op).text = op := by unfold strTok; split <;> rfl

/-- The blank in front of a symbol. -/
def gapB : CValB → List Item
  | .sym _ => [none]
  | _ => []

theorem colonGap_mk (cs : List Comment) (b : CValB) : colonGap (some (.mk cs b)) = gapB b := by
  cases b <;> rfl

/-- Where a value is printed: behind something that takes no blank, or behind a colon. -/
def Ready (g : Bool) (v : Vis) : Prop :=
  if g then v.pos > 0 ∧ Solid (lastFrag v) else Tight v

/-- The gap behind a list of terms. -/
def gapTs (rs : List CCommaT) : List Item := if bareEnd rs then [none] else []

theorem gapTs_cons (x r : CCommaT) (rs : List CCommaT) : gapTs (x :: r :: rs) = gapTs (r :: rs) := by
  obtain ⟨a, b, _ | t⟩ := x <;> rfl

/-- The gap behind a clause. -/
def clauseGap (g : List Item) : Option CComma → List Item
  | none => g
  | some c => commaGap c

/-- `ORDER BY`, as printed. -/
def obStep (ob : Option (Str × Bool)) (v : Vis) : Vis :=
  match ob with
  | none => v
  | some (k, desc) =>
    let v := pushes [bs "ORDER BY ", k] (lineBreak v)
    if desc then push (bs " DESC ") v else v
/-- `LIMIT`, as printed. -/
def limStep (li : Option Int) (v : Vis) : Vis :=
  match li with
  | none => v
  | some n => push (bs "LIMIT " ++ intText n ++ bs " ") (lineBreak v)
/-- The items of `ORDER BY`. -/
def obItems : Option (Str × Bool) → List Item
  | none => []
  | some (k, desc) => none :: some ⟨.orderBy, bs "ORDER BY"⟩ :: none :: some ⟨.ident, k⟩ ::
      (if desc then [none, some ⟨.desc, bs "DESC"⟩] else [])
/-- The items of `LIMIT`. -/
def limItems : Option Int → List Item
  | none => []
  | some n => [none, some ⟨.limit, bs "LIMIT"⟩, none, some ⟨.number, intText n⟩]
/-- The gap behind `ORDER BY`. -/
def obGap (g : List Item) : Option (Str × Bool) → List Item
  | none => g
  | some (_, desc) => if desc then [none] else []
/-- The gap behind `LIMIT`. -/
def limGap (g : List Item) : Option Int → List Item
  | none => g
  | some _ => [none]
/-- The indentation of `GROUP BY` is taken back. -/
def gbEnd (gb : Option CComma) (v : Vis) : Vis :=
  match gb with
  | none => v
  | some _ => popIndent v

theorem Out.gbEnd {v w : Vis} {s : Str} {P : Str → Prop} (h : Out v w s P) (gb : Option CComma) :
    Out v (gbEnd gb w) s P := by
  cases gb with
  | none => exact h
  | some c => exact h.popIndent

theorem itSelect_eq (cs ex all cols from_ wh gb ob li) :
    itSelect (.mk cs ex all cols from_ wh gb ob li) =
    (if ex then [some ⟨.explain, bs "EXPLAIN"⟩, none] else []) ++
    some ⟨.select, bs "SELECT"⟩ :: none ::
    ((if all then iop (bs "*") :: (if cols.isEmpty then [] else [iop (bs ","), none]) else []) ++
    (itCols cols ++ none :: some ⟨.from_, bs "FROM"⟩ :: none ::
    (itPlugin from_ ++
    (itClause ⟨.where_, bs "WHERE"⟩ wh ++
    (itClause ⟨.groupBy, bs "GROUP BY"⟩ gb ++ (obItems ob ++ limItems li)))))) := by
  rcases ob with _ | ⟨k, _ | _⟩ <;> cases li <;> simp [itSelect, obItems, limItems]

theorem selectGap_eq (cs ex all cols from_ wh gb ob li) :
    selectGap (.mk cs ex all cols from_ wh gb ob li) =
      limGap (obGap (clauseGap (clauseGap [] wh) gb) ob) li := by
  cases li with
  | some n => rfl
  | none =>
    rcases ob with _ | ⟨k, d⟩
    · cases gb with
      | some c => rfl
      | none => cases wh <;> rfl
    · rfl

theorem clauseGap_cases {g : List Item} (hg : g = [] ∨ g = [none]) (c : Option CComma) :
    clauseGap g c = [] ∨ clauseGap g c = [none] := by
  cases c with
  | none => exact hg
  | some c => exact commaGap_cases c

theorem obGap_cases {g : List Item} (hg : g = [] ∨ g = [none]) (ob : Option (Str × Bool)) :
    obGap g ob = [] ∨ obGap g ob = [none] := by
  rcases ob with _ | ⟨k, _ | _⟩
  · exact hg
  · exact .inl rfl
  · exact .inr rfl

theorem o_ob {g : List Item} (hg : g = [] ∨ g = [none]) (ob : Option (Str × Bool)) {v w : Vis} {s : Str}
    (hob : ∀ k, ob.map Prod.fst = some k → IsTok .ident k) (h : Out v w (s ++ render g) (Endy g)) :
    Out v (obStep ob w) (s ++ render (obItems ob) ++ render (obGap g ob)) (Endy (obGap g ob)) := by
  rcases ob with _ | ⟨k, desc⟩
  · exact h.eq (by simp [render, obItems, obGap])
  · have h1 := endy_lineBreak hg h
    have hk : Solid k := solid_ident (hob k rfl)
    have h2 := (h1.trans (out_pushes h1.brk [bs "ORDER BY "] k)).imp (Q := Solid)
      (fun f hf => hf ▸ hk)
    cases desc with
    | false =>
      refine (Out.eq (P := Solid) h2 ?_)
      simp [render, obItems, obGap, show bs "ORDER BY " = bs "ORDER BY" ++ [32] from rfl]
    | true =>
      have h3 := (h2.trans (out_push (bs " DESC ") h2.brk)).imp (Q := Endy [none])
        (fun f hf => by rw [hf]; rfl)
      exact h3.eq (by
        simp [render, obItems, obGap, show bs "ORDER BY " = bs "ORDER BY" ++ [32] from rfl,
          show bs " DESC " = 32 :: (bs "DESC" ++ [32]) from rfl])

theorem o_lim {g : List Item} (hg : g = [] ∨ g = [none]) (li : Option Int) {v w : Vis} {s : Str}
    (h : Out v w (s ++ render g) (Endy g)) :
    Out v (limStep li w) (s ++ render (limItems li) ++ render (limGap g li)) (Endy (limGap g li)) := by
  cases li with
  | none => exact h.eq (by simp [render, limItems, limGap])
  | some n =>
    have h1 := endy_lineBreak hg h
    have h2 := (h1.trans (out_push (bs "LIMIT " ++ intText n ++ bs " ") h1.brk)).imp
      (Q := Endy [none]) (fun f hf => by rw [hf]; simp [Endy, show bs " " = [32] from rfl])
    exact h2.eq (by
      simp [render, limItems, limGap, show bs "LIMIT " = bs "LIMIT" ++ [32] from rfl,
        show bs " " = [32] from rfl])

theorem fSelect_eq (better : Vis → Vis → Bool) (num : Str → Str) (ex all cols from_ wh gb ob li) (v : Vis) :
    fSelect better num (.mk [] ex all cols from_ wh gb ob li) v =
      gbEnd gb (limStep li (obStep ob (fGroup better num gb (fClause better num (bs "WHERE ") wh
        (fPlugin better num from_ (push (bs "FROM ") (lineBreak
          (selectLayouts better (starThen all cols.isEmpty (fColList better num 0 cols))
            (push (bs "SELECT ") (if ex then push (bs "EXPLAIN ") v else v)))))))))) := by
  rcases ob with _ | ⟨k, d⟩ <;> cases li <;> cases gb <;> rfl

theorem ready_of {v : Vis} (h : Tight v) : Ready false v := h

theorem tight_eq {v : Vis} {s : Str} (h : lastFrag v = s) (hs : tightAfter.contains s = true := by decide) :
    Tight v := .inr (.inl (by rw [h]; exact hs))

theorem names_ok : ∀ k ∈ [TK.symIdent, .ident], k ∈ [TK.symIdent, .ident] := fun k h => h
theorem name_ok : ∀ k ∈ [TK.ident], k ∈ [TK.symIdent, .ident] := by simp

theorem callLayouts_plain {better : Vis → Vis → Bool} {one many : Vis → Vis} {v : Vis} {s : Str}
    (hv : Pl v) (h : ∀ w, Pl w → Tight w → Out w (one w) s Solid) :
    Out v (callLayouts better one many v) (40 :: (s ++ [41])) Solid := by
  refine out_abTest hv.brk ?_
  have hc : v.copy.breakLines = false := hv.brk
  rw [copy_eta hc]
  have h1 := out_push (v := v.copy) (bs "(") hc
  have hp : Pl (push (bs "(") v.copy) := ⟨h1.brk, hv.ind⟩
  have h2 := h1.trans (h _ hp (tight_eq h1.last))
  exact (h2.close (bs ")") (solid_lit _ 41)).eq (by
    simp [show bs "(" = [40] from rfl, show bs ")" = [41] from rfl])

section
variable (better : Vis → Vis → Bool) (num : Str → Str) (lim : Str → Option Int)

mutual
theorem o_and : ∀ (e : CAnd) (v : Vis), wAnd num lim e → Pl v → Tight v →
    Out v (fAnd better num e v) (render (itAnd e)) Solid
  | .mk cs l rs, v, hw, hv, ht => by
    obtain ⟨_, hl, hrs⟩ := hw
    have h1 := o_or l v hl hv ht
    have h2 := o_andTs rs _ hrs (h1.pl hv) h1.last
    exact ((h1.trans h2).popIndents _).eq (by simp [itAnd, render_append])
theorem o_andTs : ∀ (rs : List CAndT) (v : Vis), wAndTs num lim rs → Pl v → Solid (lastFrag v) →
    Out v (fAndTs better num rs v) (render (itAndTs rs)) Solid
  | [], v, _, hv, hs => Out.refl hv.brk hs
  | .mk op t :: rs, v, hw, hv, hs => by
    obtain ⟨_, ht, hrs⟩ := hw
    have h1 : Out v (andStep op v) (32 :: 32 :: (op ++ [32])) (fun f => f.getLast? = some 32) := by
      unfold andStep
      rw [solid_lineBreak hv.brk hs]
      have := (out_push (bs " ") hv.brk).binop op
      exact ⟨this.brk, this.opts, this.text, this.last⟩
    have h2 := o_or t _ ht (h1.pl hv) (tight_sp h1.last)
    have h12 := h1.trans h2
    have h3 := o_andTs rs _ hrs (h12.pl hv) h12.last
    exact (h12.trans h3).eq (by simp [itAndTs, render, render_append, andTok_text])
theorem o_or : ∀ (e : COr) (v : Vis), wOr num lim e → Pl v → Tight v →
    Out v (fOr better num e v) (render (itOr e)) Solid
  | .mk cs l rs, v, hw, hv, ht => by
    obtain ⟨rfl, hl, hrs⟩ := hw
    have h1 := o_cond l v hl hv ht
    have h2 := o_orTs rs _ hrs (h1.pl hv) h1.last
    exact (h1.trans h2).eq (by simp [itOr, render_append])
theorem o_orTs : ∀ (rs : List COrT) (v : Vis), wOrTs num lim rs → Pl v → Solid (lastFrag v) →
    Out v (fOrTs better num rs v) (render (itOrTs rs)) Solid
  | [], v, _, hv, hs => Out.refl hv.brk hs
  | .mk op t :: rs, v, hw, hv, hs => by
    obtain ⟨_, ht, hrs⟩ := hw
    have h1 := (Out.refl hv.brk hs).binop op
    have h2 := o_condC t _ ht (h1.pl hv) (tight_sp h1.last)
    have h12 := h1.trans h2
    have h3 := o_orTs rs _ hrs (h12.pl hv) h12.last
    exact (h12.trans h3).eq (by simp [itOrTs, render, render_append, orTok_text])
theorem o_condC : ∀ (c : CCond) (v : Vis), wCond num lim c → Pl v → Tight v →
    Out v (fCondC better num c v) (render (itCond c)) Solid
  | .not cs c, v, hw, hv, ht => by
    obtain ⟨rfl, hc⟩ := hw
    have h1 := out_push (v := v) (bs "NOT ") hv.brk
    have h2 := o_cond c _ hc (h1.pl hv) (tight_sp (by rw [h1.last]; rfl))
    exact (h1.trans h2).eq (by simp [itCond, render]; rfl)
  | .cmp cs l r, v, hw, hv, ht => by
    obtain ⟨rfl, hl, hr⟩ := hw
    have h1 := o_add l v hl hv ht
    have h2 := o_cmp r _ hr (h1.pl hv) h1.last
    exact (h1.trans h2).eq (by simp [itCond, render_append])
theorem o_cond : ∀ (c : CCond) (v : Vis), wCond num lim c → Pl v → Tight v →
    Out v (fCond better num c v) (render (itCond c)) Solid
  | .not cs c, v, hw, hv, ht => by
    obtain ⟨rfl, hc⟩ := hw
    have h1 := out_push (v := v) (bs "NOT ") hv.brk
    have h2 := o_cond c _ hc (h1.pl hv) (tight_sp (by rw [h1.last]; rfl))
    exact (h1.trans h2).eq (by simp [itCond, render]; rfl)
  | .cmp cs l r, v, hw, hv, ht => by
    obtain ⟨rfl, hl, hr⟩ := hw
    have h1 := o_add l v hl hv ht
    have h2 := o_cmp r _ hr (h1.pl hv) h1.last
    exact (h1.trans h2).eq (by simp [itCond, render_append])
theorem o_cmp : ∀ (r : Option CCmpT) (v : Vis), wCmp num lim r → Pl v → Solid (lastFrag v) →
    Out v (fCmp better num r v) (render (itCmp r)) Solid
  | none, v, _, hv, hs => Out.refl hv.brk hs
  | some (.mk op r), v, hw, hv, hs => by
    obtain ⟨_, hr⟩ := hw
    have h1 := (Out.refl hv.brk hs).binop op
    have h2 := o_add r _ hr (h1.pl hv) (tight_sp h1.last)
    exact (h1.trans h2).eq (by simp [itCmp, render, render_append, cmpTok_text])
theorem o_add : ∀ (e : CAdd) (v : Vis), wAdd num lim e → Pl v → Tight v →
    Out v (fAdd better num e v) (render (itAdd e)) Solid
  | .mk cs l rs, v, hw, hv, ht => by
    obtain ⟨rfl, hl, hrs⟩ := hw
    have h1 := o_mul l v hl hv ht
    have h2 := o_addTs rs _ hrs (h1.pl hv) h1.last
    exact (h1.trans h2).eq (by simp [itAdd, render_append])
theorem o_addTs : ∀ (rs : List CAddT) (v : Vis), wAddTs num lim rs → Pl v → Solid (lastFrag v) →
    Out v (fAddTs better num rs v) (render (itAddTs rs)) Solid
  | [], v, _, hv, hs => Out.refl hv.brk hs
  | .mk op t :: rs, v, hw, hv, hs => by
    obtain ⟨_, ht, hrs⟩ := hw
    have h1 := (Out.refl hv.brk hs).binop op
    have h2 := o_mul t _ ht (h1.pl hv) (tight_sp h1.last)
    have h12 := h1.trans h2
    have h3 := o_addTs rs _ hrs (h12.pl hv) h12.last
    exact (h12.trans h3).eq (by simp [itAddTs, render, render_append, iop])
theorem o_mul : ∀ (e : CMul) (v : Vis), wMul num lim e → Pl v → Tight v →
    Out v (fMul better num e v) (render (itMul e)) Solid
  | .mk cs l rs, v, hw, hv, ht => by
    obtain ⟨rfl, hl, hrs⟩ := hw
    have h1 := o_member l v hl hv ht
    have h2 := o_mulTs rs _ hrs (h1.pl hv) h1.last
    exact (h1.trans h2).eq (by simp [itMul, render_append])
theorem o_mulTs : ∀ (rs : List CMulT) (v : Vis), wMulTs num lim rs → Pl v → Solid (lastFrag v) →
    Out v (fMulTs better num rs v) (render (itMulTs rs)) Solid
  | [], v, _, hv, hs => Out.refl hv.brk hs
  | .mk op t :: rs, v, hw, hv, hs => by
    obtain ⟨_, ht, hrs⟩ := hw
    have h1 := (Out.refl hv.brk hs).binop op
    have h2 := o_val t false _ ht (h1.pl hv) (tight_sp h1.last)
    have h12 := h1.trans h2
    have h3 := o_mulTs rs _ hrs (h12.pl hv) h12.last
    exact (h12.trans h3).eq (by simp [itMulTs, render, render_append, iop])
theorem o_member : ∀ (e : CMember) (v : Vis), wMember num lim e → Pl v → Tight v →
    Out v (fMember better num e v) (render (itMember e)) Solid
  | .mk cs l rs, v, hw, hv, ht => by
    obtain ⟨rfl, hl, hrs, _⟩ := hw
    have h1 := o_val l false v hl hv ht
    have h2 := o_mTerms rs _ hrs (h1.pl hv) h1.last
    exact (h1.trans h2).eq (by simp [itMember, render_append])
theorem o_mTerms : ∀ (rs : List CMTerm) (v : Vis), wMTerms num lim rs → Pl v → Solid (lastFrag v) →
    Out v (fMTerms better num rs v) (render (itMTerms rs)) Solid
  | [], v, _, hv, hs => Out.refl hv.brk hs
  | .range i j :: rs, v, hw, hv, hs => by
    obtain ⟨hi, hj, hrs⟩ := hw
    have h1 := out_push (v := v) (bs "[") hv.brk
    have h2 := h1.trans (o_optVal i false (· = bs "[") _ hi (h1.pl hv) (tight_eq h1.last) h1.last)
    have h3 := h2.trans (out_push (bs ":") h2.brk)
    have h4 := h3.trans (o_optVal j true (· = bs ":") _ hj (h3.pl hv)
      ⟨by simp [push, show bs ":" = [58] from rfl], by
        rw [lastFrag_push]; exact solid_lit _ 58⟩ h3.last)
    have h5 := h4.close (bs "]") (solid_lit _ 93)
    have h6 := o_mTerms rs _ hrs (h5.pl hv) h5.last
    exact (h5.trans h6).eq (by simp [itMTerms, render, render_append, iop])
  | .index i :: rs, v, hw, hv, hs => by
    obtain ⟨hi, hrs⟩ := hw
    have h1 := out_push (v := v) (bs "[") hv.brk
    have h2 := h1.trans (o_val i false _ hi (h1.pl hv) (tight_eq h1.last))
    have h5 := h2.close (bs "]") (solid_lit _ 93)
    have h6 := o_mTerms rs _ hrs (h5.pl hv) h5.last
    exact (h5.trans h6).eq (by simp [itMTerms, render, render_append, iop])
  | .field n :: rs, v, hw, hv, hs => by
    obtain ⟨hn, hrs⟩ := hw
    have h1 := out_push (v := v) (bs ".") hv.brk
    have h5 := h1.close n (solid_ident hn)
    have h6 := o_mTerms rs _ hrs (h5.pl hv) h5.last
    exact (h5.trans h6).eq (by simp [itMTerms, render, render_append, iop])
  | .empty :: rs, v, hw, _, _ => hw.elim
theorem o_optVal : ∀ (x : Option CVal) (g : Bool) (P : Str → Prop) (v : Vis), wOptVal num lim x → Pl v →
    Ready g v → P (lastFrag v) →
    Out v (fOptVal better num x v) (render ((if g then colonGap x else []) ++ itOptVal x))
      (fun f => Solid f ∨ P f)
  | none, g, P, v, _, hv, hr, hp => (Out.refl hv.brk (.inr hp)).eq (by
      simp [colonGap, itOptVal, render])
  | some x, g, P, v, hw, hv, hr, hp => (o_val x g v hw hv hr).imp (fun f h => .inl h)
theorem o_comma : ∀ (e : CComma) (v : Vis), wComma num lim e → Pl v → Tight v →
    Out v (fComma better num e v) (render (itComma e ++ commaGap e)) (Endy (commaGap e))
  | .mk cs l rs, v, hw, hv, ht => by
    obtain ⟨rfl, hl, hrs⟩ := hw
    have h1 := o_and l v hl hv ht
    cases rs with
    | nil =>
      refine (Out.eq (P := Solid) h1 ?_)
      simp [itComma, itCommaTs, commaGap, bareEnd]
    | cons r rs =>
      have h2 := o_commaTs (r :: rs) _ hrs (h1.pl hv) (by simp)
      exact (h1.trans h2).eq (by simp [itComma, render_append, gapTs, commaGap])
theorem o_commaTs : ∀ (rs : List CCommaT) (v : Vis), wCommaTs num lim rs → Pl v → rs ≠ [] →
    Out v (fCommaTs better num rs v) (render (itCommaTs rs ++ gapTs rs)) (Endy (gapTs rs))
  | [], v, _, _, h => absurd rfl h
  | .mk c1 c2 none :: rs, v, hw, hv, _ => by
    obtain ⟨rfl, rfl, hrs⟩ := hw
    have h1 := (Out.refl (P := fun _ => True) hv.brk trivial).comma
    cases rs with
    | nil =>
      have h2 : Out v (pushes [bs ",", bs " "] v) [44, 32] (Endy [none]) :=
        h1.imp (fun f hf => by rw [hf]; rfl)
      exact h2
    | cons r rs =>
      have h2 := o_commaTs (r :: rs) _ hrs (h1.pl hv) (by simp)
      exact (h1.trans h2).eq (by
        simp [itCommaTs, render, render_append, gapTs_cons, iop, show bs "," = [44] from rfl])
  | .mk c1 c2 (some t) :: rs, v, hw, hv, _ => by
    obtain ⟨rfl, rfl, ht, hrs⟩ := hw
    have h1 := (Out.refl (P := fun _ => True) hv.brk trivial).comma
    have h2 := h1.trans (o_and t _ ht (h1.pl hv) (tight_eq h1.last))
    cases rs with
    | nil =>
      exact (Out.eq (P := Solid) h2 (by
        simp [itCommaTs, render, render_append, gapTs, bareEnd, iop, show bs "," = [44] from rfl]))
    | cons r rs =>
      have h3 := o_commaTs (r :: rs) _ hrs (h2.pl hv) (by simp)
      exact (h2.trans h3).eq (by
        simp [itCommaTs, render, render_append, gapTs_cons, iop, show bs "," = [44] from rfl])
theorem o_val : ∀ (x : CVal) (g : Bool) (v : Vis), wVal num lim x → Pl v → Ready g v →
    Out v (fVal better num x v) (render ((if g then colonGap (some x) else []) ++ itVal x)) Solid
  | .mk cs b, g, v, hw, hv, hr => by
    obtain ⟨rfl, hb⟩ := hw
    rw [colonGap_mk]
    exact o_valB b g v hb hv hr
theorem o_valB : ∀ (x : CValB) (g : Bool) (v : Vis), wValB num lim x → Pl v → Ready g v →
    Out v (fValB better num x v) (render ((if g then gapB x else []) ++ itValB x)) Solid
  | .sym s, g, v, hw, hv, hr => o_sym s g v hw hv hr
  | .sub c, g, v, hw, hv, hr => by
    have h1 := out_push (v := v) (bs "(") hv.brk
    have h1' : Out v (indentIn (push (bs "(") v)) (bs "(") (· = bs "(") :=
      ⟨h1.brk, h1.opts, h1.text, h1.last⟩
    have h2 := h1'.trans (o_comma c _ hw (h1'.pl hv) (tight_eq h1'.last))
    have h3 := (h2.close (bs ")") (solid_lit _ 41)).popIndent
    exact h3.eq (by cases g <;> simp [itValB, gapB, render, render_append, iop])
  | .str t, g, v, hw, hv, hr => by
    have h := (Out.refl (P := fun _ => True) hv.brk trivial).close t
      (hw.elim solid_ml solid_str)
    exact h.eq (by cases g <;> simp [itValB, gapB, render, strTok_text])
  | .num t, g, v, hw, hv, hr => by
    have h := (Out.refl (P := fun _ => True) hv.brk trivial).close t (solid_num hw.1)
    have he : fValB better num (.num t) v = push t v := by
      show push (num t) v = _
      rw [hw.2]
    rw [he]
    exact h.eq (by cases g <;> simp [itValB, gapB, render])
  | .bool t, g, v, hw, hv, hr => by
    have h := (Out.refl (P := fun _ => True) hv.brk trivial).close t (solid_kw (by simp) hw)
    exact h.eq (by cases g <;> simp [itValB, gapB, render])
  | .null, g, v, hw, hv, hr => by
    have h := (Out.refl (P := fun _ => True) hv.brk trivial).close (bs "NULL") (solid_lit _ 76)
    exact h.eq (by cases g <;> simp [itValB, gapB, render])
theorem o_sym : ∀ (s : CSym) (g : Bool) (v : Vis), wSym num lim s → Pl v → Ready g v →
    Out v (fSym better num s v) (render ((if g then [none] else []) ++ itSym s)) Solid
  | .mk cs n called ps, g, v, hw, hv, hr => by
    obtain ⟨rfl, hn, hps, hc⟩ := hw
    have hname := name_render names_ok hn
    have hsol := solid_name names_ok hn
    -- in front of the name
    obtain ⟨v1, hv1, h1⟩ : ∃ v1, (if v.pos > v.opts.indentWidth then lineBreak (indentIn v) else v) = v1 ∧
        Out v v1 (render (if g then [none] else [])) (fun _ => True) := by
      refine ⟨_, rfl, ?_⟩
      cases g with
      | false =>
        have hr' : Tight v := hr
        split
        · rename_i hp
          rw [tight_lineBreak (v := indentIn v) hv.brk (by
            rcases hr' with h | h
            · omega
            · exact h)]
          exact ⟨hv.brk, rfl, by simp [indentIn, Vis.text, render], trivial⟩
        · exact (Out.refl hv.brk trivial)
      | true =>
        have hr' : v.pos > 0 ∧ Solid (lastFrag v) := hr
        rw [if_pos (by rw [hv.ind]; exact hr'.1), solid_lineBreak (v := indentIn v) hv.brk hr'.2]
        exact ⟨hv.brk, rfl, by simp [indentIn, Vis.text, render, push, show bs " " = [32] from rfl], trivial⟩
    have h2 := h1.close n hsol
    have hpop : ∀ (w : Vis) (s : Str), Out v w s Solid →
        Out v (if v.pos > v.opts.indentWidth then popIndent w else w) s Solid := by
      intro w s h
      split
      · exact h.popIndent
      · exact h
    simp only [fSym, show visitComments [] v = v from rfl]
    refine hpop _ _ ?_
    rw [hv1]
    cases called with
    | false =>
      have : ps = [] := hc rfl
      subst this
      simp only [List.isEmpty_nil, and_self, if_true]
      exact (Out.mk h2.brk h2.opts h2.text h2.last : Out v (site _ (push n v1)) _ Solid).eq (by
        cases g <;> simp [itSym, render, render_append, hname])
    | true =>
      have hsite : ∀ c, Out v (if (push n v1).opts.collectCallSites = true then
          site c (push n v1) else push n v1) (render (if g then [none] else []) ++ n) Solid := by
        intro c
        split
        · exact ⟨h2.brk, h2.opts, h2.text, h2.last⟩
        · exact h2
      have hs := hsite ⟨bs "function", n, ps.map argName⟩
      simp only [Bool.true_eq_false, false_and, if_false, true_and]
      cases ps with
      | nil =>
        simp only [List.isEmpty_nil, if_true]
        exact (hs.close (bs "()") (solid_lit _ 41)).eq (by
          cases g <;> simp [itSym, itArgs, render, render_append, hname, iop,
            show bs "()" = [40, 41] from rfl, show bs "(" = [40] from rfl, show bs ")" = [41] from rfl])
      | cons a as =>
        simp only [List.isEmpty_cons, Bool.false_eq_true, if_false]
        have h3 := hs.trans (callLayouts_plain (better := better) (many := fArgs2 better num true (a :: as))
          (hs.pl hv) (fun w hw ht => o_args (a :: as) w hps hw ht (by simp)))
        exact h3.eq (by
          cases g <;> simp [itSym, render, render_append, hname, iop,
            show bs "(" = [40] from rfl, show bs ")" = [41] from rfl])
theorem o_args : ∀ (as : List CArg) (v : Vis), wArgs num lim as → Pl v → Tight v → as ≠ [] →
    Out v (fArgs1 better num as v) (render (itArgs as)) Solid
  | [], v, _, _, _, h => absurd rfl h
  | a :: as, v, hw, hv, ht, _ => by
    obtain ⟨ha, has⟩ := hw
    have h1 := o_arg a v ha hv ht
    cases as with
    | nil => exact h1.eq (by simp [itArgs, render_append])
    | cons b bs' =>
      have h2 := h1.comma
      have h3 := h2.trans (o_args (b :: bs') _ has (h2.pl hv) (tight_eq h2.last) (by simp))
      exact h3.eq (by simp [itArgs, render, render_append, iop, show bs "," = [44] from rfl])
theorem o_arg : ∀ (a : CArg) (v : Vis), wArg num lim a → Pl v → Tight v →
    Out v (fArg better num a v) (render (itArg a)) Solid
  | .mk cs n r, v, hw, hv, ht => by
    obtain ⟨rfl, hn, hr⟩ := hw
    have he : fArg better num (.mk [] n r) v = fArgV better num n r v := by
      simp only [fArg, tight_far hv ht]
      rfl
    rw [he]
    exact (o_argV r n v hr hv).eq (by simp [itArg])
theorem o_argV : ∀ (r : CArgV) (n : Str) (v : Vis), wArgV num lim r → Pl v →
    Out v (fArgV better num n r v) (render (some ⟨.ident, n⟩ :: iop (bs "=") :: itArgV r)) Solid
  | .expr e, n, v, hw, hv => by
    have h1 := out_pushes hv.brk [n] (bs "=")
    have h2 := h1.trans (o_and e _ hw (h1.pl hv) (tight_eq h1.last))
    exact h2.eq (by simp [itArgV, render, iop])
  | .select q, n, v, hw, hv => by
    have h1 := out_pushes hv.brk [n] (bs "={")
    have h2 := h1.trans (out_push (bs " ") h1.brk)
    have h3 := h2.trans (o_select q _ hw (h2.pl hv))
    have h4 := h3.close (bs " }") (solid_lit _ 125)
    have he : fArgV better num n (.select q) v =
        push (bs " }") (fSelect better num q (push (bs " ") (pushes ([n] ++ [bs "={"]) v))) := by
      show (if (pushes [n, bs "={"] v).breakLines then _ else _) = _
      have : (pushes [n, bs "={"] v).breakLines = false := h1.brk
      rw [this]
      rfl
    rw [he]
    exact h4.eq (by
      simp [itArgV, render, render_append, iop, show bs " " = [32] from rfl,
        show bs "={" = [61, 123] from rfl, show bs "=" = [61] from rfl, show bs "{" = [123] from rfl,
        show bs " }" = [32, 125] from rfl, show bs "}" = [125] from rfl])
  | .array c, n, v, hw, hv => by
    have h1 := out_pushes hv.brk [n] (bs "=[")
    have h2 := h1.trans (o_comma c _ hw (h1.pl hv) (tight_eq h1.last))
    have h3 := h2.close (bs "]") (solid_lit _ 93)
    exact h3.eq (by
      simp [itArgV, render, render_append, iop,
        show bs "=[" = [61, 91] from rfl, show bs "=" = [61] from rfl, show bs "[" = [91] from rfl,
        show bs "]" = [93] from rfl])
  | .empty, n, v, hw, hv => by
    have h1 := (out_pushes hv.brk [n] (bs "=[]")).imp (Q := Solid) (fun f hf => hf ▸ solid_lit _ 93)
    exact h1.eq (by
      simp [itArgV, render, iop,
        show bs "=[]" = [61, 91, 93] from rfl, show bs "=" = [61] from rfl, show bs "[" = [91] from rfl,
        show bs "]" = [93] from rfl])
theorem o_select : ∀ (q : CSelect) (v : Vis), wSelect num lim q → Pl v →
    Out v (fSelect better num q v) (render (itSelect q ++ selectGap q)) (Endy (selectGap q))
  | .mk cs ex all cols from_ wh gb ob li, v, hw, hv => by
    obtain ⟨rfl, hcols, hall, hfrom, hwh, hgb, hob, hlim⟩ := hw
    -- EXPLAIN, SELECT
    have h1 : Out v (if ex then push (bs "EXPLAIN ") v else v)
        (render (if ex then [some ⟨.explain, bs "EXPLAIN"⟩, none] else [])) (fun _ => True) := by
      cases ex with
      | true => exact ((out_push (bs "EXPLAIN ") hv.brk).imp (fun _ _ => trivial)).eq rfl
      | false => exact Out.refl hv.brk trivial
    have h2 := h1.trans (out_push (bs "SELECT ") h1.brk)
    -- the columns
    have h3 : Out v (selectLayouts better (starThen all cols.isEmpty (fColList better num 0 cols))
          (push (bs "SELECT ") (if ex then push (bs "EXPLAIN ") v else v)))
        (render ((if ex then [some ⟨.explain, bs "EXPLAIN"⟩, none] else []) ++
          (some ⟨.select, bs "SELECT"⟩ :: none ::
          ((if all then iop (bs "*") :: (if cols.isEmpty then [] else [iop (bs ","), none]) else []) ++
            itCols cols)))) Solid := by
      generalize hx : push (bs "SELECT ") (if ex then push (bs "EXPLAIN ") v else v) = x at h2
      have hxs : (lastFrag x).getLast? = some 32 := by rw [h2.last]; rfl
      have hpx := h2.pl hv
      have key : Out (pushIndent x.copy) (starThen all cols.isEmpty (fColList better num 0 cols)
          (pushIndent x.copy)) (render ((if all then iop (bs "*") :: (if cols.isEmpty then [] else
            [iop (bs ","), none]) else []) ++ itCols cols)) Solid := by
        have hpy : Pl (pushIndent x.copy) := ⟨hpx.brk, hpx.ind⟩
        have hty : Tight (pushIndent x.copy) := tight_sp hxs
        unfold starThen
        cases all with
        | false =>
          simp only [Bool.false_eq_true, if_false]
          exact (o_cols cols 0 _ hcols hpy hty (hall rfl).1).eq (by simp)
        | true =>
          simp only [if_true]
          have h4 := out_push (v := pushIndent x.copy) (bs "*") hpy.brk
          cases cols with
          | nil =>
            simp only [List.isEmpty_nil, if_true]
            exact (h4.imp (Q := Solid) (fun f hf => hf ▸ solid_lit _ 42)).eq (by
              simp [render, itCols, iop])
          | cons c cs =>
            simp only [List.isEmpty_cons, Bool.false_eq_true, if_false]
            have h5 := h4.comma
            have h6 := h5.trans (o_cols (c :: cs) 0 _ hcols (h5.pl hpy) (tight_eq h5.last) (by simp))
            exact h6.eq (by simp [render, render_append, iop, show bs "," = [44] from rfl])
      have h5 : Out x (selectLayouts better (starThen all cols.isEmpty (fColList better num 0 cols)) x)
          _ Solid := out_abTest hpx.brk (Out.popIndent (Out.mk key.brk key.opts key.text key.last))
      exact (h2.trans h5).eq (by
        simp [render, render_append, show bs "SELECT " = bs "SELECT" ++ [32] from rfl])
    -- FROM
    have h4 := h3.trans (out_push (bs " ") h3.brk)
    have h5 := h4.trans (out_push (bs "FROM ") h4.brk)
    have h6 := h5.trans (o_plugin from_ _ hfrom (h5.pl hv))
    have e3 := solid_lineBreak h3.brk h3.last
    -- WHERE, GROUP BY
    have h7 := o_clause (bs "WHERE ") ⟨.where_, bs "WHERE"⟩ wh rfl [] (.inl rfl) hwh
      (h6.pl hv) (Out.eq (P := Endy []) h6 (List.append_nil _).symm)
    have h8 := o_group gb _ (by cases wh with
      | none => exact .inl rfl
      | some c => exact commaGap_cases c) hgb (h7.pl hv) h7
    -- ORDER BY, LIMIT
    have hc := clauseGap_cases (clauseGap_cases (.inl rfl) wh) gb
    have h9 := o_ob hc ob hob h8
    have h10 := o_lim (obGap_cases hc ob) li h9
    have h11 := h10.gbEnd gb
    rw [fSelect_eq, selectGap_eq, e3]
    exact h11.eq (by
      simp [itSelect_eq, render, render_append, show bs " " = [32] from rfl,
        show bs "FROM " = bs "FROM" ++ [32] from rfl])
theorem o_clause (kw : Str) (t : Tok) : ∀ (c : Option CComma), kw = t.text ++ [32] →
    ∀ (g : List Item), (g = [] ∨ g = [none]) → ∀ {v w : Vis} {s : Str}, wOptComma num lim c → Pl w →
    Out v w (s ++ render g) (Endy g) →
    Out v (fClause better num kw c w) (s ++ render (itClause t c) ++ render (clauseGap g c))
      (Endy (clauseGap g c))
  | none, hkw, g, hg, v, w, s, hw, hp, h => h.eq (by simp [itClause, render, clauseGap])
  | some c, hkw, g, hg, v, w, s, hw, hp, h => by
    have h1 := endy_lineBreak hg h
    have h2 := h1.trans (out_push kw h1.brk)
    have hpl : Pl (push kw (lineBreak w)) := ⟨h2.brk, by
      have := h2.opts
      rw [this, ← h.opts]; exact hp.ind⟩
    have h3 := h2.trans (o_comma c _ hw hpl (tight_sp (by rw [h2.last, hkw]; simp)))
    exact h3.eq (by simp [itClause, render, render_append, clauseGap, hkw])
theorem o_group : ∀ (c : Option CComma) (g : List Item), (g = [] ∨ g = [none]) →
    ∀ {v w : Vis} {s : Str}, wOptComma num lim c → Pl w → Out v w (s ++ render g) (Endy g) →
    Out v (fGroup better num c w)
      (s ++ render (itClause ⟨.groupBy, bs "GROUP BY"⟩ c) ++ render (clauseGap g c))
      (Endy (clauseGap g c))
  | none, g, hg, v, w, s, hw, hp, h => h.eq (by simp [itClause, render, clauseGap])
  | some c, g, hg, v, w, s, hw, hp, h => by
    have h1 := endy_lineBreak hg h
    have h2 := h1.trans (out_push (bs "GROUP BY ") h1.brk)
    have h2' : Out v (pushIndent (push (bs "GROUP BY ") (lineBreak w))) _ (· = bs "GROUP BY ") :=
      ⟨h2.brk, h2.opts, h2.text, h2.last⟩
    have hpl : Pl (pushIndent (push (bs "GROUP BY ") (lineBreak w))) := ⟨h2.brk, by
      have := h2'.opts
      rw [this, ← h.opts]; exact hp.ind⟩
    have h3 := h2'.trans (o_comma c _ hw hpl (tight_sp (by rw [h2'.last]; rfl)))
    exact h3.eq (by
      simp [itClause, render, render_append, clauseGap, show bs "GROUP BY " = bs "GROUP BY" ++ [32] from rfl])
theorem o_cols : ∀ (cs : List CCol) (i : Nat) (v : Vis), wCols num lim cs → Pl v → Tight v → cs ≠ [] →
    Out v (fColList better num i cs v) (render (itCols cs)) Solid
  | [], i, v, _, _, _, h => absurd rfl h
  | c :: cs, i, v, hw, hv, ht, _ => by
    obtain ⟨hc, hcs⟩ := hw
    have h1 := o_col c i v hc hv ht
    cases cs with
    | nil => exact h1.eq (by simp [itCols, render_append])
    | cons b bs' =>
      have h2 := h1.comma
      have e : lineBreak (pushes [bs ",", bs " "] (fCol better num i c v)) =
          pushes [bs ",", bs " "] (fCol better num i c v) :=
        tight_lineBreak h2.brk (.inl (by rw [h2.last]; decide))
      have h3 := h2.trans (o_cols (b :: bs') (i + 1) _ hcs (h2.pl hv) (tight_eq h2.last) (by simp))
      simp only [fColList, List.isEmpty_cons, Bool.false_eq_true, if_false]
      rw [e]
      exact h3.eq (by simp [itCols, render, render_append, iop, show bs "," = [44] from rfl])
theorem o_col : ∀ (c : CCol) (i : Nat) (v : Vis), wCol num lim c → Pl v → Tight v →
    Out v (fCol better num i c v) (render (itCol c)) Solid
  | .mk cs b a, i, v, hw, hv, ht => by
    obtain ⟨rfl, hb, ha⟩ := hw
    exact o_colB b i a v hb ha hv ht
theorem o_colB : ∀ (b : CColB) (i : Nat) (a : Str) (v : Vis), wColB num lim b a →
    (a = [] ∨ IsTok .ident a) → Pl v → Tight v →
    Out v (fColB better num i a b v) (render (itColB b ++
      if a = [] then [] else [none, some ⟨.as_, bs "AS"⟩, none, some ⟨.ident, a⟩])) Solid
  | .star, i, a, v, hw, ha, hv, ht => by
    have hw' : a = [] := hw
    subst hw'
    exact ((out_push (v := v) (bs "*") hv.brk).imp (Q := Solid) (fun f hf => hf ▸ solid_lit _ 42)).eq
      (by simp [itColB, render, iop])
  | .expr e, i, a, v, hw, ha, hv, ht => by
    have hc : v.copy.breakLines = false := hv.brk
    have h1 := o_and e v.copy hw ⟨hc, hv.ind⟩ ht
    by_cases hn : a = []
    · subst hn
      simp only [fColB, ne_eq, not_true_eq_false, if_false]
      refine out_abTest hv.brk ?_
      rw [copy_eta hc]
      exact h1.eq (by simp [itColB])
    · have ha' := solid_ident (ha.resolve_left hn)
      simp only [fColB, ne_eq, hn, not_false_eq_true, if_true]
      refine out_abTest hv.brk ?_
      rw [copy_eta hc]
      have h2 := (h1.trans (out_pushes h1.brk [bs " AS "] a)).imp (Q := Solid) (fun f hf => hf ▸ ha')
      exact h2.eq (by
        simp [itColB, hn, render, render_append, show bs " AS " = 32 :: (bs "AS" ++ [32]) from rfl])
  | .select q, i, a, v, hw, ha, hv, ht => by
    have h1 := out_pushes hv.brk [bs "{"] (bs " ")
    have h3 := h1.trans (o_select q _ hw (h1.pl hv))
    have h4 := h3.close (bs " }") (solid_lit _ 125)
    have hb : (pushes [bs "{", bs " "] v).breakLines = false := h1.brk
    simp only [fColB, hb, Bool.false_eq_true, if_false]
    by_cases hn : a = []
    · subst hn
      simp only [ne_eq, not_true_eq_false, if_false]
      exact h4.eq (by
        simp [itColB, render, render_append, iop, show bs " " = [32] from rfl,
          show bs " }" = [32, 125] from rfl, show bs "}" = [125] from rfl])
    · have ha' := solid_ident (ha.resolve_left hn)
      simp only [ne_eq, hn, not_false_eq_true, if_true]
      have h5 := (h4.trans (out_pushes h4.brk [bs " AS "] a)).imp (Q := Solid) (fun f hf => hf ▸ ha')
      exact h5.eq (by
        simp [itColB, hn, render, render_append, iop, show bs " " = [32] from rfl,
          show bs " }" = [32, 125] from rfl, show bs "}" = [125] from rfl,
          show bs " AS " = 32 :: (bs "AS" ++ [32]) from rfl])
theorem o_plugin : ∀ (p : CPlugin) (v : Vis), wPlugin num lim p → Pl v →
    Out v (fPlugin better num p v) (render (itPlugin p)) Solid
  | .mk n call args, v, hw, hv => by
    obtain ⟨hn, has, hc⟩ := hw
    have hname := name_render name_ok hn
    have h2 := (out_push (v := v) n hv.brk).imp (Q := Solid) (fun f hf => hf ▸ solid_name name_ok hn)
    have hsite : ∀ c, Out v (if (push n v).opts.collectCallSites = true then
        site c (push n v) else push n v) n Solid := by
      intro c
      split
      · exact ⟨h2.brk, h2.opts, h2.text, h2.last⟩
      · exact h2
    simp only [fPlugin]
    cases call with
    | false =>
      simp only [Bool.false_eq_true, if_false]
      exact (hsite _).eq (by simp [itPlugin, hname])
    | true =>
      simp only [if_true]
      have hs := hsite ⟨bs "plugin", n, args.map argName⟩
      cases args with
      | nil =>
        simp only [List.isEmpty_nil, if_true]
        exact (hs.close (bs "()") (solid_lit _ 41)).eq (by
          simp [itPlugin, itArgs, render, render_append, hname, iop,
            show bs "()" = [40, 41] from rfl, show bs "(" = [40] from rfl, show bs ")" = [41] from rfl])
      | cons a as =>
        simp only [List.isEmpty_cons, Bool.false_eq_true, if_false]
        have h3 := hs.trans (callLayouts_plain (better := better) (many := fArgs2 better num true (a :: as))
          (hs.pl hv) (fun w hw ht => o_args (a :: as) w has hw ht (by simp)))
        exact h3.eq (by
          simp [itPlugin, render, render_append, hname, iop,
            show bs "(" = [40] from rfl, show bs ")" = [41] from rfl])
end
end

end Vfilter.Fmt
