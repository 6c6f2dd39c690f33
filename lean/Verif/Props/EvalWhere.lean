import Verif.EvalDemo
import Verif.Props.EvalFrom
/-!
# C25, C27, C28: WHERE, column lists and names
-/
set_option linter.all false

namespace Vfilter.Vql

section
variable {F S : Type} [FloatOps F] {H : Host F S}

/-! ## C25: WHERE is a filter -/

/-- `Emits … rows st out st'`: going through the source rows in order, the condition is
evaluated once for each; a row for which it is truthy contributes exactly one output row,
the others contribute nothing. -/
inductive Emits (H : Host F S) (all : Bool) (cols : List Col) (where_ : Option Comma) (s : Nat) :
    List (V F) → St F S → List (V F) → St F S → Prop where
  | nil (st : St F S) : Emits H all cols where_ s [] st [] st
  | keep {row d : V F} {rows out : List (V F)} {cell : Nat} {st s1 s2 s3 : St F S} :
      Verdict H all cols where_ s row st cell true s1 → Runs H (matRowP cell) s1 d s2 →
      Emits H all cols where_ s rows s2 out s3 → Emits H all cols where_ s (row :: rows) st (d :: out) s3
  | drop {row : V F} {rows out : List (V F)} {cell : Nat} {st s1 s2 : St F S} :
      Verdict H all cols where_ s row st cell false s1 →
      Emits H all cols where_ s rows s1 out s2 → Emits H all cols where_ s (row :: rows) st out s2

/-- **C25** A SELECT emits, in source order, one row for each source row whose condition is
truthy and nothing else. -/
theorem C25_select {ex all : Bool} {cols : List Col} {from_ : Plugin} {where_ : Option Comma}
    {s : Nat} {st st' : St F S} {out : List (V F)} :
    Runs H (call (.select (.mk ex all cols from_ where_ none none none) s)) st out st' ↔
      ∃ rows s1, Runs H (call (.plugin from_ s)) st rows s1 ∧
        Emits H all cols where_ s rows s1 out st' := by
  have each : ∀ rows s1, (∃ outs, Each (fun row a o b => Runs H (processRowP H all cols where_ s row) a o b)
      rows s1 outs st' ∧ out = outs.flatten) ↔ Emits H all cols where_ s rows s1 out st' := by
    intro rows s1
    constructor
    · rintro ⟨outs, h, rfl⟩
      induction h with
      | nil => exact .nil _
      | @cons a l b bs st s1 s2 h1 h2 ih =>
        obtain ⟨cell, bb, s3, hv, hr⟩ := runs_processRow.1 h1
        cases bb with
        | false =>
          simp only [Bool.false_eq_true, if_false] at hr
          obtain ⟨rfl, rfl⟩ := hr
          exact .drop hv (by simpa using ih)
        | true =>
          simp only [if_true] at hr
          obtain ⟨d, hm, rfl⟩ := hr
          exact .keep hv hm (by simpa using ih)
    · intro h
      induction h with
      | nil => exact ⟨[], .nil _, rfl⟩
      | @keep row d rows out cell st s1 s2 s3 hv hm _ ih =>
        obtain ⟨outs, h1, h2⟩ := ih
        exact ⟨[d] :: outs, .cons (runs_processRow.2 ⟨cell, true, s1, hv, by simpa using hm⟩) h1, by simp [h2]⟩
      | @drop row rows out cell st s1 s2 hv _ ih =>
        obtain ⟨outs, h1, h2⟩ := ih
        exact ⟨[] :: outs, .cons (runs_processRow.2 ⟨cell, false, s1, hv, by simp⟩) h1, by simp [h2]⟩
  rw [runs_select]
  constructor
  · rintro ⟨rows, s1, outs, h1, h2, h3⟩
    exact ⟨rows, s1, h1, (each rows s1).1 ⟨outs, h2, h3⟩⟩
  · rintro ⟨rows, s1, h1, h2⟩
    obtain ⟨outs, h3, h4⟩ := (each rows s1).2 h2
    exact ⟨rows, s1, outs, h1, h3, h4⟩

/-- `o` is what the SELECT makes of the source row `row` (in some state). -/
def Emitted (H : Host F S) (all : Bool) (cols : List Col) (where_ : Option Comma) (s : Nat)
    (row o : V F) : Prop :=
  ∃ st cell s1 s2, Verdict H all cols where_ s row st cell true s1 ∧ Runs H (matRowP cell) s1 o s2

/-- **C25** Without WHERE there is one row for each source row, in order. -/
theorem C25_no_where {ex all : Bool} {cols : List Col} {from_ : Plugin}
    {s : Nat} {st st' : St F S} {out : List (V F)}
    (h : Runs H (call (.select (.mk ex all cols from_ none none none none) s)) st out st') :
    ∃ rows s1, Runs H (call (.plugin from_ s)) st rows s1 ∧
      List.Forall₂ (Emitted H all cols none s) rows out := by
  obtain ⟨rows, s1, h1, h2⟩ := C25_select.1 h
  refine ⟨rows, s1, h1, ?_⟩
  clear h h1
  generalize hw : (none : Option Comma) = w at h2
  induction h2 with
  | nil => exact .nil
  | keep hv hm _ ih => subst hw; exact .cons ⟨_, _, _, _, hv, hm⟩ ih
  | drop hv _ _ =>
    subst hw
    obtain ⟨_, _, hb, _⟩ := hv
    exact absurd hb (by simp)

/-- The state a row is processed in: nothing the query can see has changed since `st0`. -/
structure Reached (s : Nat) (st0 st : St F S) : Prop where
  frame : Frame st0.scopes.length st0 st
  grows : Grows st0 st
  const : ConstOK st

omit [FloatOps F] in
theorem Reached.refl {s : Nat} {st : St F S} (h : ConstOK st) : Reached s st st :=
  ⟨.of_eq (fun _ _ => rfl), .refl _, h⟩

theorem Reached.step {α : Type} {s : Nat} {st0 st st' : St F S} {p : Prog F S α} {a : α}
    (hH : H.Polite) (hp : p.Polite false []) (h : Reached s st0 st) (hr : Runs H p st a st') :
    Reached s st0 st' :=
  ⟨h.frame.trans ((hr.frame hH hp).mono h.grows.scopes), h.grows.trans hr.grows, hr.constOK hH hp h.const⟩

theorem Reached.row {all : Bool} {cols : List Col} {where_ : Option Comma} {s : Nat} {row : V F}
    {st0 st st' : St F S} {o : List (V F)} (hH : H.Polite) (h : Reached s st0 st)
    (hr : Runs H (processRowP H all cols where_ s row) st o st') : Reached s st0 st' :=
  h.step hH (polite_processRowP hH _ _ _ _ _ _) hr

/-- **C25** If the condition is a function `f` of the source row, the output rows are those
of `rows.filter f`, in order. -/
theorem C25_filter (hH : H.Polite) {ex all : Bool} {cols : List Col} {from_ : Plugin}
    {where_ : Option Comma} {s : Nat} {st st' : St F S} {out : List (V F)} (hc : ConstOK st)
    (f : V F → Bool)
    (hf : ∀ row st1 cell b st2, Reached s st st1 → Verdict H all cols where_ s row st1 cell b st2 →
      b = f row)
    (h : Runs H (call (.select (.mk ex all cols from_ where_ none none none) s)) st out st') :
    ∃ rows s1, Runs H (call (.plugin from_ s)) st rows s1 ∧
      List.Forall₂ (Emitted H all cols where_ s) (rows.filter f) out := by
  obtain ⟨rows, s1, h1, h2⟩ := C25_select.1 h
  refine ⟨rows, s1, h1, ?_⟩
  have hr : Reached s st s1 := (Reached.refl hc).step hH (polite_call _ _) h1
  clear h h1
  induction h2 with
  | nil => exact .nil
  | @keep row d rows out cell st1 s1 s2 s3 hv hm _ ih =>
    have hrow : f row = true := (hf _ _ _ _ _ hr hv).symm
    rw [List.filter_cons_of_pos hrow]
    refine .cons ⟨_, _, _, _, hv, hm⟩ (ih ?_)
    exact hr.row hH (runs_processRow.2 ⟨cell, true, s1, hv, by simp only [if_true]; exact ⟨_, hm, rfl⟩⟩)
  | @drop row rows out cell st1 s1 s2 hv _ ih =>
    have hrow : f row = false := (hf _ _ _ _ _ hr hv).symm
    rw [List.filter_cons_of_neg (by simp [hrow])]
    refine ih ?_
    exact hr.row (o := []) hH (runs_processRow.2 ⟨cell, false, s1, hv,
      by rw [if_neg (by simp)]; exact ⟨rfl, rfl⟩⟩)

/-- The lazy row of `SELECT *` has the columns of the source row. -/
theorem specCols_star {H : Host F S} {ns : Nat} {d : OD (V F)} :
    specCols H true [] ns d = d.map (fun p => (p.1, .const p.2)) := by
  simp [specCols, starCols, hasCol]

theorem verdict_cols {all : Bool} {cols : List Col} {where_ : Option Comma} {s : Nat}
    {row : V F} {d : OD (V F)} (ha : Answers H row d) {st : St F S} {cell : Nat} {b : Bool} {st' : St F S}
    (h : Verdict H all cols where_ s row st cell b st') :
    ∃ r, st'.rows[cell]? = some r ∧ r.cols = specCols H all cols (st.scopes.length + 1) d := by
  obtain ⟨s1, h1, h2⟩ := h
  obtain ⟨rfl, rfl⟩ := (runs_transform ha).1 h1
  have h0 : (((st.push s []).push st.scopes.length [row]).addRow
      (specCols H all cols (st.push s []).scopes.length d)).rows[(st.push s []).rows.length]? =
      some ⟨specCols H all cols (st.scopes.length + 1) d, []⟩ := by
    rw [push_len]
    exact addRow_get _ _
  cases where_ with
  | none => obtain ⟨_, rfl⟩ := h2; exact ⟨_, h0, rfl⟩
  | some w =>
    obtain ⟨v, s2, h3, h4⟩ := h2
    obtain ⟨r1, hr1, e1⟩ := h3.grows.rows _ _ (by rw [push_rows]; exact h0)
    obtain ⟨r2, hr2, e2⟩ := h4.grows.rows _ _ hr1
    exact ⟨r2, hr2, e2.trans e1⟩

/-- **C25** `SELECT * FROM source WHERE cond` over dictionaries delivers exactly the source
rows for which the condition holds, unchanged and in order. -/
theorem C25_star (hH : H.Polite) {ex : Bool} {from_ : Plugin} {where_ : Option Comma}
    {s : Nat} {st st' s1 : St F S} {out : List (V F)} (hc : ConstOK st)
    {ds : List (OD (V F))} (hsrc : Runs H (call (.plugin from_ s)) st (ds.map .dict) s1)
    (hw : ∀ d ∈ ds, OD.WF d) (hk : ∀ d ∈ ds, ∀ k ∈ OD.keys d, PlainKey k) (f : OD (V F) → Bool)
    (hf : ∀ d ∈ ds, ∀ st1 cell b st2, Reached s st st1 →
      Verdict H true [] where_ s (.dict d) st1 cell b st2 → b = f d)
    (h : Runs H (call (.select (.mk ex true [] from_ where_ none none none) s)) st out st') :
    out = (ds.filter f).map .dict := by
  obtain ⟨rows, s1', h1, h2⟩ := C25_select.1 h
  obtain ⟨rfl, rfl⟩ := h1.det hsrc
  have hr : Reached s st s1' := (Reached.refl hc).step hH (polite_call _ _) h1
  clear h h1 hsrc
  generalize hrows : ds.map Val.dict = rows at h2
  induction h2 generalizing ds with
  | nil =>
    cases ds with
    | nil => rfl
    | cons d ds => simp at hrows
  | @keep row d' rows out cell st1 s1 s2 s3 hv hm _ ih =>
    cases ds with
    | nil => simp at hrows
    | cons d ds =>
      simp only [List.map_cons, List.cons.injEq] at hrows
      obtain ⟨rfl, hrows⟩ := hrows
      have hrow : f d = true := (hf d (by simp) _ _ _ _ hr hv).symm
      have hp := runs_processRow.2 ⟨cell, true, s1, hv, by simp only [if_true]; exact ⟨_, hm, rfl⟩⟩
      have hr2 := hr.row hH hp
      rw [List.filter_cons_of_pos hrow, List.map_cons]
      have hans := answers_dict (H := H) (hw d (by simp)) (hk d (by simp))
      obtain ⟨r, hrr, hcols⟩ := verdict_cols hans hv
      rw [specCols_star] at hcols
      -- the state after the condition is coherent as well
      have hcs : ConstOK s1 := by
        have hgo : ConstOK s2 := hr2.const
        obtain ⟨s0, ht, hrest⟩ := hv
        have hpush : ∀ (x : St F S) n vs, ConstOK x → ConstOK (x.push n vs) := fun x n vs h => h
        have c0 : ConstOK s0 := ht.constOK hH (polite_transformP hH _ _ _ _ _) (hpush _ _ _ hr.const)
        cases where_ with
        | none => obtain ⟨_, rfl⟩ := hrest; exact c0
        | some w =>
          obtain ⟨v, s4, h3, h4⟩ := hrest
          exact h4.constOK hH (hH.truth _ _) (h3.constOK hH (polite_call _ _) (hpush _ _ _ c0))
      obtain ⟨rfl, rfl⟩ := (matRow_const (hw d (by simp)) hcs hrr hcols).1 hm
      rw [ih (fun d hd => hw d (by simp [hd])) (fun d hd => hk d (by simp [hd]))
        (fun d hd => hf d (by simp [hd])) hr2 hrows]
  | @drop row rows out cell st1 s1 s2 hv _ ih =>
    cases ds with
    | nil => simp at hrows
    | cons d ds =>
      simp only [List.map_cons, List.cons.injEq] at hrows
      obtain ⟨rfl, hrows⟩ := hrows
      have hrow : f d = false := (hf d (by simp) _ _ _ _ hr hv).symm
      have hp := runs_processRow.2 ⟨cell, false, s1, hv, by simp only [Bool.false_eq_true, if_false]; exact ⟨rfl, rfl⟩⟩
      rw [List.filter_cons_of_neg (by simp [hrow])]
      exact ih (fun d hd => hw d (by simp [hd])) (fun d hd => hk d (by simp [hd]))
        (fun d hd => hf d (by simp [hd])) (hr.row hH hp) hrows

/-- **C26** `LIMIT n` takes the first `n` rows (one row for `n < 1`). -/
theorem C26_select_limit {ex all : Bool} {cols : List Col} {from_ : Plugin} {where_ : Option Comma}
    {gb : Option Comma} {ob : Option (Str × Bool)} {n : I64}
    {s : Nat} {st st' : St F S} {out : List (V F)} :
    Runs H (call (.select (.mk ex all cols from_ where_ gb ob (some n)) s)) st out st' ↔
      ∃ rows, Runs H (call (.select (.mk ex all cols from_ where_ gb ob none) s)) st rows st' ∧
        out = rows.take (limitCount n) := runs_select_limit

/-! ## C27: the columns of an output row -/

/-- The column names of a column list, `*` being the name of the star: `SELECT *` starts
with the source columns `ms`, an expression adds its name, a later `*` adds the source
columns that are not there yet. -/
def colNames (all : Bool) (names ms : List Str) : List Str :=
  names.foldl (fun acc n =>
    if n = bs "*" then acc ++ ms.filter (fun m => decide (m ∉ acc)) else acc ++ [n])
    (if all then ms else [])

omit [FloatOps F] in
theorem names_starCols {d : OD (V F)} {acc : List (Str × Getter F)} :
    (starCols d acc).map (·.1) =
      acc.map (·.1) ++ (OD.keys d).filter (fun m => decide (m ∉ acc.map (·.1))) := by
  have hcol : ∀ k, hasCol acc k = decide (k ∈ acc.map (·.1)) := by
    intro k
    rw [Bool.eq_iff_iff]
    simp only [hasCol, List.any_eq_true, decide_eq_true_eq, List.mem_map]
  unfold starCols
  rw [List.map_append, List.map_map, OD.keys, List.filter_map]
  congr 1
  have : (fun p : Str × V F => !hasCol acc p.1) = (fun m => decide (m ∉ acc.map (·.1))) ∘ (fun p => p.1) := by
    funext p
    simp only [hcol, Function.comp]
    by_cases h : p.1 ∈ acc.map (·.1) <;> simp [h]
  rw [this]
  rfl

theorem names_specCols {all : Bool} {cols : List Col} {ns : Nat} {d : OD (V F)} :
    (specCols H all cols ns d).map (·.1) = colNames all (cols.map H.colName) (OD.keys d) := by
  unfold specCols colNames
  have h0 : ((if all then starCols d [] else [] : List (Str × Getter F))).map (·.1) =
      if all then OD.keys d else [] := by
    cases all
    · rfl
    · simp only [if_true, names_starCols]
      simp
  generalize (if all then starCols d [] else [] : List (Str × Getter F)) = acc at h0
  generalize (if all then OD.keys d else [] : List Str) = acc' at h0
  induction cols generalizing acc acc' with
  | nil => exact h0
  | cons c cols ih =>
    rw [List.map_cons, List.foldl_cons, List.foldl_cons]
    refine ih _ _ ?_
    split
    · rw [names_starCols, h0]
    · rw [List.map_append, h0]; rfl

omit [FloatOps F] in
theorem lastKeys_append (acc ks : List Str) (k : Str) :
    lastKeys acc (ks ++ [k]) = (lastKeys acc ks).filter (fun x => decide (x ≠ k)) ++ [k] := by
  simp [lastKeys]

/-- Setting keys one after the other never leaves a key twice. -/
theorem lastKeys_nodup (acc ks : List Str) (h : acc.Nodup) : (lastKeys acc ks).Nodup := by
  induction ks generalizing acc with
  | nil => exact h
  | cons k ks ih =>
    refine ih _ ?_
    refine List.nodup_append.2 ⟨h.sublist List.filter_sublist, by simp, ?_⟩
    intro a ha b hb
    simp only [List.mem_singleton] at hb
    subst hb
    have := (List.mem_filter.1 ha).2
    simpa using this

theorem lastKeys_of_nodup (acc ks : List Str) (h : (acc ++ ks).Nodup) : lastKeys acc ks = acc ++ ks := by
  induction ks generalizing acc with
  | nil => simp [lastKeys]
  | cons k ks ih =>
    have hk : k ∉ acc := by
      intro hm
      exact (List.nodup_append.1 h).2.2 k hm k (by simp) rfl
    have e : acc.filter (fun x => decide (x ≠ k)) = acc := by
      rw [List.filter_eq_self]
      intro x hx
      simp only [decide_eq_true_eq]
      rintro rfl
      exact hk hx
    show lastKeys (acc.filter (fun x => decide (x ≠ k)) ++ [k]) ks = _
    rw [e, ih _ (by simpa using h)]
    simp

theorem mem_lastKeys (acc ks : List Str) (x : Str) : x ∈ lastKeys acc ks ↔ x ∈ acc ∨ x ∈ ks := by
  induction ks generalizing acc with
  | nil => simp [lastKeys]
  | cons k ks ih =>
    show x ∈ lastKeys (acc.filter (fun x => decide (x ≠ k)) ++ [k]) ks ↔ _
    rw [ih]
    by_cases h : x = k
    · simp [h]
    · simp [h]

/-- **C27** The columns of an emitted row are those of the column list: the source columns
for `SELECT *`, each expression's name, and for a later `*` the source columns not yet
there.  A name that occurs several times stands once, at its last place. -/
theorem C27_columns {all : Bool} {cols : List Col} {where_ : Option Comma} {s : Nat} {row o : V F}
    {d : OD (V F)} (ha : Answers H row d) (h : Emitted H all cols where_ s row o) :
    ∃ out, o = .dict out ∧
      OD.keys out = lastKeys [] (colNames all (cols.map H.colName) (OD.keys d)) := by
  obtain ⟨st, cell, s1, s2, hv, hm⟩ := h
  obtain ⟨r, hr, hc⟩ := verdict_cols ha hv
  obtain ⟨out, rfl, hk⟩ := matRow_keys hr hm
  exact ⟨out, rfl, by rw [hk, hc, names_specCols]⟩

/-- **C27** No column appears twice, whatever the source row is. -/
theorem C27_nodup {all : Bool} {cols : List Col} {where_ : Option Comma} {s : Nat} {row o : V F}
    (h : Emitted H all cols where_ s row o) : ∃ out, o = .dict out ∧ (OD.keys out).Nodup := by
  obtain ⟨st, cell, s1, s2, hv, hm⟩ := h
  obtain ⟨r, hr⟩ := verdict_cell hv
  obtain ⟨out, rfl, hk⟩ := matRow_keys hr hm
  exact ⟨out, rfl, by rw [hk]; exact lastKeys_nodup _ _ (by simp)⟩

/-- **C27** With distinct names the columns are exactly the column list, in order. -/
theorem C27_distinct {all : Bool} {cols : List Col} {where_ : Option Comma} {s : Nat} {row o : V F}
    {d : OD (V F)} (ha : Answers H row d) (h : Emitted H all cols where_ s row o)
    (hn : (colNames all (cols.map H.colName) (OD.keys d)).Nodup) :
    ∃ out, o = .dict out ∧ OD.keys out = colNames all (cols.map H.colName) (OD.keys d) := by
  obtain ⟨out, rfl, hk⟩ := C27_columns ha h
  exact ⟨out, rfl, by rw [hk, lastKeys_of_nodup _ _ (by simpa using hn)]; simp⟩

/-- **C27** `SELECT *`: the source row's columns in source order. -/
theorem C27_star {where_ : Option Comma} {s : Nat} {row o : V F} {d : OD (V F)} (ha : Answers H row d)
    (h : Emitted H true [] where_ s row o) : ∃ out, o = .dict out ∧ OD.keys out = OD.keys d :=
  C27_distinct ha h (by simpa [colNames, OD.WF] using ha.nodup)

/-- **C27** Explicit columns followed by `*`: first the explicit names, then the source
columns that are not among them. -/
theorem C27_late_star {cols : List Col} {star : Col} {where_ : Option Comma} {s : Nat} {row o : V F}
    {d : OD (V F)} (ha : Answers H row d)
    (hstar : H.colName star = bs "*") (hcols : ∀ c ∈ cols, H.colName c ≠ bs "*")
    (hn : (cols.map H.colName).Nodup)
    (h : Emitted H false (cols ++ [star]) where_ s row o) :
    ∃ out, o = .dict out ∧ OD.keys out =
      cols.map H.colName ++ (OD.keys d).filter (fun m => decide (m ∉ cols.map H.colName)) := by
  have e0 : ∀ (l : List Col) (acc : List Str), (∀ c ∈ l, H.colName c ≠ bs "*") →
      (l.map H.colName).foldl (fun acc n =>
        if n = bs "*" then acc ++ (OD.keys d).filter (fun m => decide (m ∉ acc)) else acc ++ [n]) acc
      = acc ++ l.map H.colName := by
    intro l
    induction l with
    | nil => intro acc _; simp
    | cons c l ih =>
      intro acc hl
      rw [List.map_cons, List.foldl_cons, if_neg (hl c (by simp)), ih _ (fun c hc => hl c (by simp [hc]))]
      simp
  have e : colNames false ((cols ++ [star]).map H.colName) (OD.keys d) =
      cols.map H.colName ++ (OD.keys d).filter (fun m => decide (m ∉ cols.map H.colName)) := by
    unfold colNames
    rw [List.map_append, List.foldl_append]
    simp only [Bool.false_eq_true, if_false]
    rw [e0 cols [] hcols]
    simp only [List.nil_append, List.map_cons, List.map_nil, List.foldl_cons, List.foldl_nil]
    rw [if_pos hstar]
  rw [← e]
  refine C27_distinct ha h ?_
  rw [e]
  refine List.nodup_append.2 ⟨hn, List.Nodup.sublist List.filter_sublist ha.nodup, ?_⟩
  intro a ha b hb
  rintro rfl
  have := (List.mem_filter.1 hb).2
  simp only [decide_eq_true_eq] at this
  exact this ha

/-! ## C28: what names refer to -/

/-- Lookup in a lazy row: the column if there is one, else nothing. -/
theorem runs_rowGet_col {cell : Nat} {r : RowCell F} {k : Str} {st st' : St F S}
    {res : Option (V F) × Bool} (hr : st.rows[cell]? = some r) (hk : k ∈ r.cols.map (·.1)) :
    Runs H (call (.rowGet cell k)) st res st' ↔
      ∃ v s1, ColVal H r k st v s1 ∧ res = (some v, true) ∧
        st' = match OD.get r.cache k with
          | some _ => s1
          | none => ((Prim.rowSet cell k v).step s1).2 := by
  obtain ⟨g, hg, _⟩ := getter_of_mem hk
  conv => lhs; rw [runs_call]
  simp only [body]
  rw [runs_pb]
  simp only [Prim.step, hr]
  unfold ColVal
  cases hc : OD.get r.cache k with
  | some w =>
    simp only [runs_pure]
    constructor
    · rintro ⟨rfl, rfl⟩; exact ⟨w, _, ⟨rfl, rfl⟩, rfl, rfl⟩
    · rintro ⟨v, s1, ⟨rfl, rfl⟩, rfl, rfl⟩; exact ⟨rfl, rfl⟩
  | none =>
    simp only [hg]
    constructor
    · intro h
      obtain ⟨v, s1, h1, h2⟩ := runs_bind.1 h
      rw [runs_pb] at h2
      obtain ⟨rfl, rfl⟩ := runs_pure.1 h2
      exact ⟨v, s1, ⟨g, rfl, h1⟩, rfl, rfl⟩
    · rintro ⟨v, s1, ⟨g', hg', h1⟩, rfl, rfl⟩
      cases hg'
      refine runs_bind.2 ⟨v, _, h1, ?_⟩
      rw [runs_pb]
      exact runs_pure.2 ⟨rfl, rfl⟩

theorem runs_rowGet_none {cell : Nat} {r : RowCell F} {k : Str} {st st' : St F S}
    {res : Option (V F) × Bool} (hst : ConstOK st) (hr : st.rows[cell]? = some r)
    (hk : k ∉ r.cols.map (·.1)) :
    Runs H (call (.rowGet cell k)) st res st' ↔ res = (some .null, false) ∧ st' = st := by
  have hg : r.getter k = none := by
    cases hg : r.getter k with
    | none => rfl
    | some g =>
      exfalso
      unfold RowCell.getter at hg
      cases hf : r.cols.reverse.find? (fun p => decide (p.1 = k)) with
      | none => simp [hf] at hg
      | some q =>
        have h1 := List.find?_some hf
        simp only [decide_eq_true_eq] at h1
        have h2 := List.mem_of_find?_eq_some hf
        exact hk (List.mem_map.2 ⟨q, by simpa using h2, h1⟩)
  have hc : OD.get r.cache k = none := by
    cases hc : OD.get r.cache k with
    | none => rfl
    | some v =>
      obtain ⟨g, hg', _⟩ := hst cell r hr k v hc
      rw [hg] at hg'; cases hg'
  conv => lhs; rw [runs_call]
  simp only [body]
  rw [runs_pb]
  simp only [Prim.step, hr, hc, hg]
  exact runs_pure

/-- The loop with a default value of NULL already found. -/
theorem resolveLoop_dicts_dflt {s : Nat} {k : Str} (hk : PlainKey k) {x : V F} {st st' : St F S}
    {r : Option (V F) × Bool} : ∀ (ds : List (OD (V F))),
    Runs H (resolveLoopP s k (some x) (ds.map .dict)) st r st' ↔
      r = (some ((ds.findSome? (fun d => OD.get d k)).getD x), true) ∧ st' = st
  | [] => by simp [resolveLoopP]
  | d :: ds => by
    rw [List.map_cons, runs_resolveLoop_cons]
    simp only [runs_assoc_dict hk, dictAns, Prod.mk.injEq]
    constructor
    · rintro ⟨e, b, s1, ⟨⟨rfl, rfl⟩, rfl⟩, h⟩
      cases hg : OD.get d k with
      | none =>
        simp only [hg, Option.isSome_none, Bool.false_eq_true, if_false, Bool.false_and] at h
        rw [resolveLoop_dicts_dflt hk ds] at h
        simpa [List.findSome?_cons, hg] using h
      | some v =>
        simp only [hg, Option.isSome_some, if_true] at h
        simpa [List.findSome?_cons, hg] using h
    · rintro ⟨rfl, rfl⟩
      refine ⟨_, _, _, ⟨⟨rfl, rfl⟩, rfl⟩, ?_⟩
      cases hg : OD.get d k with
      | none =>
        simp only [Option.isSome_none, Bool.false_eq_true, if_false, Bool.false_and]
        rw [resolveLoop_dicts_dflt hk ds]
        simp [List.findSome?_cons, hg]
      | some v => simp [List.findSome?_cons, hg]

/-- **C28** In WHERE a name that is an output column refers to that column: its cached value
if it was computed before for this row, else its expression is evaluated.  `ns` is the scope
of the condition: its innermost variables are the source row and the lazy output row. -/
theorem C28_where_alias {ns cell : Nat} {r : RowCell F} {k : Str} {base : List (V F)} {row : V F}
    {st st' : St F S} {res : Option (V F) × Bool} (hd : (st.scp ns).depth < 1000)
    (hv : (st.scp ns).vars = base ++ [row, .obj (.row cell)])
    (hr : st.rows[cell]? = some r) (hk : k ∈ r.cols.map (·.1)) :
    Runs H (call (.resolve ns k)) st res st' ↔
      ∃ v s1, ColVal H r k st v s1 ∧ res = (some v, true) ∧
        st' = match OD.get r.cache k with
          | some _ => s1
          | none => ((Prim.rowSet cell k v).step s1).2 := by
  rw [runs_resolve hd, hv]
  simp only [List.reverse_append, List.reverse_cons, List.reverse_nil, List.nil_append, List.cons_append,
    List.append_assoc]
  rw [runs_resolveLoop_cons]
  constructor
  · rintro ⟨e, b, s1, h1, h2⟩
    obtain ⟨v, s2, h3, h4, h5⟩ := (runs_rowGet_col hr hk).1 (runs_assoc_row.1 h1)
    cases h4
    simp only [if_true, Option.getD_some] at h2
    obtain ⟨rfl, rfl⟩ := h2
    exact ⟨v, s2, h3, rfl, h5⟩
  · rintro ⟨v, s2, h3, rfl, h5⟩
    exact ⟨some v, true, st', runs_assoc_row.2 ((runs_rowGet_col hr hk).2 ⟨v, s2, h3, rfl, h5⟩), by simp⟩

/-- **C28** In WHERE a name that is not an output column refers to the source row's column,
else to the enclosing scope (dictionaries `ds`); a name unknown everywhere is NULL. -/
theorem C28_where_other {ns cell : Nat} {r : RowCell F} {k : Str} (hp : PlainKey k)
    {ds : List (OD (V F))} {d : OD (V F)}
    {st st' : St F S} {res : Option (V F) × Bool} (hst : ConstOK st) (hd : (st.scp ns).depth < 1000)
    (hv : (st.scp ns).vars = ds.map .dict ++ [.dict d, .obj (.row cell)])
    (hr : st.rows[cell]? = some r) (hk : k ∉ r.cols.map (·.1)) :
    Runs H (call (.resolve ns k)) st res st' ↔
      res = (some (((OD.get d k).or (lookup ds k)).getD .null), true) ∧ st' = st := by
  have e : (ds.map Val.dict ++ [Val.dict d, Val.obj (Obj.row cell)] : List (V F)).reverse =
      (.obj (.row cell) : V F) :: ((d :: ds.reverse).map Val.dict) := by simp
  have e2 : ((d :: ds.reverse).findSome? (fun d => OD.get d k)) = (OD.get d k).or (lookup ds k) := by
    rw [List.findSome?_cons]
    cases h : OD.get d k <;> simp [lookup]
  rw [runs_resolve hd, hv, e, runs_resolveLoop_cons]
  rw [← e2]
  constructor
  · rintro ⟨e, b, s1, h1, h⟩
    obtain ⟨h2, rfl⟩ := (runs_rowGet_none hst hr hk).1 (runs_assoc_row.1 h1)
    cases h2
    simp only [Bool.false_eq_true, if_false] at h
    exact (resolveLoop_dicts_dflt hp _).1 h
  · intro h
    refine ⟨_, _, _, runs_assoc_row.2 ((runs_rowGet_none hst hr hk).2 ⟨rfl, rfl⟩), ?_⟩
    simp only [Bool.false_eq_true, if_false]
    exact (resolveLoop_dicts_dflt hp _).2 h

/-- **C28** In a column expression a name refers to the source row's column, else to the
enclosing scope, and never to another output column: the scope of the expression consists of
the enclosing variables and the source row. -/
theorem C28_column {ns : Nat} {k : Str} (hp : PlainKey k) {ds : List (OD (V F))} {d : OD (V F)}
    {st st' : St F S} {res : Option (V F) × Bool} (hd : (st.scp ns).depth < 1000)
    (hv : (st.scp ns).vars = ds.map .dict ++ [.dict d]) :
    Runs H (call (.resolve ns k)) st res st' ↔
      res = ((OD.get d k).or (lookup ds k), ((OD.get d k).or (lookup ds k)).isSome) ∧ st' = st := by
  have := resolve_dicts (H := H) hp (ds := ds ++ [d]) (st' := st') (r := res) hd (by simpa using hv)
  rw [lookup_append, lookup_singleton] at this
  exact this

/-- **C28** The scopes of the previous theorems are those a SELECT uses, at any time while a
row is processed: when the source row `row` is transformed in scope `s`, column expressions
are evaluated in a scope with the variables of `s` and the row. -/
theorem C28_scopes (hH : H.Polite) {all : Bool} {cols : List Col} {s : Nat} {row : V F}
    {d : OD (V F)} (ha : Answers H row d) {st s1 : St F S} {cell : Nat}
    (h : Runs H (transformP H all cols s row) st cell s1) {α : Type} {p : Prog F S α} {a : α}
    {s2 : St F S} {fl : Bool} (hp : p.Polite fl []) (hr : Runs H p s1 a s2) :
    ∃ r, s2.rows[cell]? = some r ∧ r.cols.map (·.1) = colNames all (cols.map H.colName) (OD.keys d) ∧
      ∀ k c nm ns, (k, Getter.col c nm ns) ∈ r.cols →
        (s2.scp ns).vars = (st.scp s).vars ++ [row] ∧ (s2.scp ns).depth = (st.scp s).depth + 1 := by
  obtain ⟨rfl, rfl⟩ := (runs_transform ha).1 h
  obtain ⟨r, hr1, hr2⟩ := hr.grows.rows _ _ (addRow_get (st.push s [row]) _)
  refine ⟨r, hr1, by rw [hr2]; exact names_specCols, ?_⟩
  intro k c nm ns hm
  have hns : ns = st.scopes.length := by
    rw [hr2] at hm
    have key : ∀ (cols : List Col) (acc : List (Str × Getter F)),
        (∀ k c nm ns, (k, Getter.col c nm ns) ∈ acc → ns = st.scopes.length) →
        ∀ k c nm ns, (k, Getter.col c nm ns) ∈ cols.foldl (fun acc c =>
          if H.colName c = bs "*" then starCols d acc
          else acc ++ [(H.colName c, .col c (H.colName c) st.scopes.length)]) acc → ns = st.scopes.length := by
      intro cols
      induction cols with
      | nil => intro acc h; exact h
      | cons c cols ih =>
        intro acc h
        refine ih _ ?_
        intro k c2 nm ns hm
        simp only at hm
        split at hm
        · unfold starCols at hm
          rcases List.mem_append.1 hm with hm | hm
          · exact h _ _ _ _ hm
          · obtain ⟨q, _, hq⟩ := List.mem_map.1 hm
            simp at hq
        · rcases List.mem_append.1 hm with hm | hm
          · exact h _ _ _ _ hm
          · simp only [List.mem_singleton, Prod.mk.injEq, Getter.col.injEq] at hm
            exact hm.2.2.2
    refine key cols _ ?_ k c nm ns hm
    intro k c nm ns hm
    split at hm
    · unfold starCols at hm
      simp at hm
    · simp at hm
  subst hns
  have hlt : st.scopes.length < ((st.push s [row]).addRow (specCols H all cols st.scopes.length d)).scopes.length := by
    simp
  have hf := hr.frame hH hp
  refine ⟨?_, ?_⟩
  · rw [hf.vars _ hlt, addRow_scp, push_scp]
  · rw [hf.depth _ hlt, addRow_scp, push_scp]

/-- The state in which the condition of a row starts. -/
theorem verdict_where {all : Bool} {cols : List Col} {w : Comma} {s : Nat}
    {row : V F} {d : OD (V F)} (ha : Answers H row d) {st st' : St F S} {cell : Nat} {b : Bool}
    (hs : s < st.scopes.length)
    (h : Verdict H all cols (some w) s row st cell b st') :
    ∃ ns s1 v s2, (s1.scp ns).vars = (st.scp s).vars ++ [row, .obj (.row cell)] ∧
      (s1.scp ns).depth = (st.scp s).depth + 2 ∧
      s1.rows[cell]? = some ⟨specCols H all cols (st.scopes.length + 1) d, []⟩ ∧
      (ConstOK st → ConstOK s1) ∧
      Runs H (call (.comma w ns)) s1 v s2 ∧ Runs H (H.truth v s) s2 b st' := by
  obtain ⟨s1, h1, v, s2, h3, h4⟩ := h
  obtain ⟨rfl, rfl⟩ := (runs_transform ha).1 h1
  refine ⟨_, _, v, s2, ?_, ?_, ?_, ?_, h3, h4⟩
  · rw [push_scp, addRow_scp, push_scp_lt _ _ _ (by simp), push_scp]
    simp
  · rw [push_scp, addRow_scp, push_scp_lt _ _ _ (by simp), push_scp]
  · rw [push_rows, push_len]
    exact addRow_get _ _
  · intro hc
    exact constOK_prim (.newRow _) _ rfl (show ConstOK ((st.push s []).push st.scopes.length [row]) from hc)

end

/-! ## Examples -/

/-- `SELECT * FROM src WHERE a` for every source of dictionaries with a column `a`: the rows
whose `a` is truthy. -/
theorem C25_example (ds : List (OD (V F64))) (vars : OD (V F64))
    (hw : ∀ d ∈ ds, OD.WF d) (hk : ∀ d ∈ ds, ∀ k ∈ OD.keys d, PlainKey k)
    (ha : ∀ d ∈ ds, ∃ i, OD.get d (bs "a") = some (.int i)) {out : List (V F64)} {st' : St F64 Unit}
    (h : Runs (demo [(bs "src", ds.map .dict)])
      (call (.select (.mk false true [] (.src "src") (some (.val (.name 0 "a"))) none none none) 0))
      (St.init vars) out st') :
    out = (ds.filter (fun d => truthy ({} : World F64 Obj) ((OD.get d (bs "a")).getD .null))).map .dict := by
  have hc : ConstOK (St.init vars) := by
    intro c r hr; simp [St.init] at hr
  have hsrc : Runs (demo [(bs "src", ds.map .dict)]) (call (.plugin (.src "src") 0)) (St.init vars)
      (ds.map .dict) (St.init vars) := by
    refine (runs_plugin_reg (c := bs "src") (by decide +kernel) ?_ (by simp [St.init, St.scp])).2
      ⟨[], _, runs_pure.2 ⟨rfl, rfl⟩, ?_⟩
    · simp [demo, stdHost, OD.get]
    · simp only [demo, stdHost]
      rw [if_neg (by decide +kernel), if_neg (by decide +kernel)]
      refine runs_pure.2 ⟨?_, rfl⟩
      simp [OD.get]
  refine C25_star (demo_polite _) hc hsrc hw hk _ ?_ h
  intro d hd st1 cell b st2 hr hv
  obtain ⟨i, hi⟩ := ha d hd
  have h0 : 0 < (St.init vars).scopes.length := by simp [St.init]
  have hans := answers_dict (H := demo [(bs "src", ds.map .dict)]) (hw d hd) (hk d hd)
  obtain ⟨ns, s1, v, s2, hvars, hdep, hrow, hcc, hrun, htr⟩ :=
    verdict_where hans (Nat.lt_of_lt_of_le h0 hr.grows.scopes) hv
  rw [hr.frame.depth 0 h0] at hdep
  have hdep' : (s1.scp ns).depth < 1000 := by rw [hdep]; simp [St.init, St.scp]
  rw [specCols_star] at hrow
  have hm : bs "a" ∈ ((d.map (fun p => (p.1, (Getter.const p.2 : Getter F64))))).map (·.1) := by
    rw [List.map_map]
    exact List.mem_map.2 ⟨_, OD.mem_of_get hi, rfl⟩
  have hres : Runs (demo [(bs "src", ds.map .dict)]) (call (.resolve ns (bs "a"))) (s1.seen 0)
      (some (.int i), true) ((Prim.rowSet cell (bs "a") (.int i)).step (s1.seen 0)).2 := by
    refine (C28_where_alias (r := ⟨_, []⟩) (by simpa using hdep') (by simpa using hvars)
      (by simpa using hrow) hm).2 ⟨.int i, s1.seen 0, ?_, rfl, rfl⟩
    unfold ColVal
    simp only [OD.get]
    refine ⟨_, getter_const (hw d hd) rfl hi, ?_⟩
    rw [runs_call]
    exact runs_pure.2 ⟨rfl, rfl⟩
  have hrun' := runs_comma_val.1 hrun
  obtain ⟨rfl, rfl⟩ := (runs_name_plain (by decide +kernel) (by decide +kernel) hres trivial).1 hrun'
  have : Runs (demo [(bs "src", ds.map .dict)]) (pure (truthy ({} : World F64 Obj) (.int i)))
      ((Prim.rowSet cell (bs "a") (.int i)).step (s1.seen 0)).2 b st2 := htr
  rw [(runs_pure.1 this).1, hi]
  rfl

example : gives demoSrc [] (.mk false true [] (.src "src") (some (.rel (.name 0 "a") ">" (.int "1")))
    none none none) [.dict [(bs "a", .int 2#64), (bs "b", .str (bs "y"))],
    .dict [(bs "a", .int 3#64), (bs "b", .str (bs "x"))]] = true := by decide +kernel

/-- `SELECT b AS c, *, a AS d FROM src`. -/
example : gives demoSrc [] (.mk false false [.mk (.expr (.val (.name 0 "b"))) (bs "c"), .mk .star [],
    .mk (.expr (.val (.name 1 "a"))) (bs "d")] (.src "src") none none none (some 1#64))
    [.dict [(bs "c", .str (bs "x")), (bs "a", .int 1#64), (bs "b", .str (bs "x")), (bs "d", .int 1#64)]]
    = true := by decide +kernel

/-- A repeated name stands at its last place: `SELECT *, 7 AS a FROM src LIMIT 1`. -/
example : gives demoSrc [] (.mk false true [.mk (.expr (.val (.int "7"))) (bs "a")] (.src "src")
    none none none (some 1#64))
    [.dict [(bs "b", .str (bs "x")), (bs "a", .int 7#64)]] = true := by decide +kernel

/-- In WHERE an alias hides the source column of that name, in column expressions it does
not: `SELECT b AS a, a AS n FROM src WHERE a = 'y'`. -/
example : gives demoSrc [] (.mk false false [.mk (.expr (.val (.name 0 "b"))) (bs "a"),
    .mk (.expr (.val (.name 1 "a"))) (bs "n")] (.src "src")
    (some (.rel (.name 2 "a") "=" (.str (bs "'y'")))) none none none)
    [.dict [(bs "a", .str (bs "y")), (bs "n", .int 2#64)]] = true := by decide +kernel

/-- A name known nowhere is NULL in WHERE, without a log message. -/
example : gives demoSrc [] (.mk false false [.mk (.expr (.val (.name 0 "b"))) (bs "x")] (.src "src")
    (some (.val (.name 1 "nope"))) none none none) [] = true := by decide +kernel

end Vfilter.Vql
