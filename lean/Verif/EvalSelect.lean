import Verif.EvalNames
/-!
# The stages of a SELECT
-/
set_option linter.all false

namespace Vfilter.Vql

section
variable {F S : Type}

/-- `st` with a new scope: a copy of `s` with variables `vs` appended. -/
def St.push (st : St F S) (s : Nat) (vs : List (V F)) : St F S :=
  { st with scopes := st.scopes ++ [⟨(st.scp s).vars ++ vs, (st.scp s).depth + 1, some s, none⟩] }

theorem copy_push (st : St F S) (s : Nat) :
    (Prim.copy s : Prim F S).step st = (st.scopes.length, st.push s []) := by
  simp [Prim.step, St.push]

theorem push_scp (st : St F S) (s : Nat) (vs : List (V F)) :
    (st.push s vs).scp st.scopes.length =
      ⟨(st.scp s).vars ++ vs, (st.scp s).depth + 1, some s, none⟩ := by
  simp [St.push, St.scp]

theorem push_scp_lt (st : St F S) (s : Nat) (vs : List (V F)) {i : Nat} (h : i < st.scopes.length) :
    (st.push s vs).scp i = st.scp i := by
  simp [St.push, St.scp, List.getElem?_append_left h]

theorem append_push (st : St F S) (s : Nat) (vs : List (V F)) (v : V F) :
    ((Prim.append st.scopes.length v : Prim F S).step (st.push s vs)) = ((), st.push s (vs ++ [v])) := by
  simp only [Prim.step, St.appendVar, push_scp]
  simp [St.push]

@[simp] theorem push_len (st : St F S) (s : Nat) (vs : List (V F)) :
    (st.push s vs).scopes.length = st.scopes.length + 1 := by simp [St.push]
@[simp] theorem push_rows (st : St F S) (s : Nat) (vs : List (V F)) : (st.push s vs).rows = st.rows := rfl

/-- `st` with a new lazy row with these columns. -/
def St.addRow (st : St F S) (cols : List (Str × Getter F)) : St F S :=
  { st with rows := st.rows ++ [⟨cols, []⟩] }

theorem newRow_step (st : St F S) (cols : List (Str × Getter F)) :
    (Prim.newRow cols : Prim F S).step st = (st.rows.length, st.addRow cols) := rfl

@[simp] theorem addRow_get (st : St F S) (cols : List (Str × Getter F)) :
    (st.addRow cols).rows[st.rows.length]? = some ⟨cols, []⟩ := by simp [St.addRow]
@[simp] theorem addRow_scopes (st : St F S) (cols : List (Str × Getter F)) :
    (st.addRow cols).scopes = st.scopes := rfl
@[simp] theorem addRow_scp (st : St F S) (cols : List (Str × Getter F)) (i : Nat) :
    (st.addRow cols).scp i = st.scp i := rfl

variable [FloatOps F] {H : Host F S}

/-! ## Loops that collect rows -/

/-- `outs` are the results of the successive runs of `f` on the elements of a list. -/
inductive Each {α β : Type} (R : α → St F S → β → St F S → Prop) :
    List α → St F S → List β → St F S → Prop where
  | nil (st : St F S) : Each R [] st [] st
  | cons {a : α} {l : List α} {b : β} {bs : List β} {st s1 s2 : St F S} :
      R a st b s1 → Each R l s1 bs s2 → Each R (a :: l) st (b :: bs) s2

omit [FloatOps F] in
theorem Each.length {α β : Type} {R : α → St F S → β → St F S → Prop} {l : List α} {bs : List β}
    {st st' : St F S} (h : Each R l st bs st') : bs.length = l.length := by
  induction h with
  | nil => rfl
  | cons _ _ ih => simp [ih]

theorem runs_collect {α β : Type} {f : α → Prog F S (List β)} {l : List α} {acc out : List β}
    {st st' : St F S} :
    Runs H (foldP (fun acc a => do
        let o ← f a
        pure (acc ++ o)) acc l) st out st' ↔
      ∃ outs, Each (fun a s o s' => Runs H (f a) s o s') l st outs st' ∧ out = acc ++ outs.flatten := by
  induction l generalizing acc st with
  | nil =>
    simp only [foldP, runs_pure]
    constructor
    · rintro ⟨rfl, rfl⟩; exact ⟨[], .nil _, by simp⟩
    · rintro ⟨outs, h, rfl⟩; cases h; simp
  | cons a l ih =>
    simp only [foldP, runs_bind]
    constructor
    · rintro ⟨acc1, s1, ⟨o, s2, h1, h2⟩, h3⟩
      obtain ⟨rfl, rfl⟩ := runs_pure.1 h2
      obtain ⟨outs, h4, rfl⟩ := ih.1 h3
      exact ⟨o :: outs, .cons h1 h4, by simp⟩
    · rintro ⟨outs, h, rfl⟩
      cases h with
      | @cons _ _ o outs _ s1 _ h1 h2 =>
        exact ⟨acc ++ o, s1, ⟨o, s1, h1, runs_pure.2 ⟨rfl, rfl⟩⟩, ih.2 ⟨outs, h2, by simp⟩⟩

theorem runs_mapP {α β : Type} {f : α → Prog F S β} {l : List α} {out : List β} {st st' : St F S} :
    Runs H (mapP f l) st out st' ↔ Each (fun a s o s' => Runs H (f a) s o s') l st out st' := by
  induction l generalizing out st with
  | nil =>
    simp only [mapP, runs_pure]
    constructor
    · rintro ⟨rfl, rfl⟩; exact .nil _
    · intro h; cases h; exact ⟨rfl, rfl⟩
  | cons a l ih =>
    simp only [mapP, runs_bind]
    constructor
    · rintro ⟨b, s1, h1, bs, s2, h2, h3⟩
      obtain ⟨rfl, rfl⟩ := runs_pure.1 h3
      exact .cons h1 (ih.1 h2)
    · intro h
      cases h with
      | @cons _ _ o outs _ s1 _ h1 h2 =>
        exact ⟨o, s1, h1, outs, _, ih.2 h2, runs_pure.2 ⟨rfl, rfl⟩⟩

/-! ## SELECT without GROUP BY, ORDER BY and LIMIT -/

theorem runs_select {ex all : Bool} {cols : List Col} {from_ : Plugin} {where_ : Option Comma}
    {s : Nat} {st st' : St F S} {out : List (V F)} :
    Runs H (call (.select (.mk ex all cols from_ where_ none none none) s)) st out st' ↔
      ∃ rows s1 outs, Runs H (call (.plugin from_ s)) st rows s1 ∧
        Each (fun row a o b => Runs H (processRowP H all cols where_ s row) a o b) rows s1 outs st' ∧
        out = outs.flatten := by
  rw [runs_call]
  simp only [body]
  constructor
  · intro h
    obtain ⟨rows, s1, h1, h2⟩ := runs_bind.1 h
    obtain ⟨outs, h3, h4⟩ := runs_collect.1 h2
    exact ⟨rows, s1, outs, h1, h3, by simpa using h4⟩
  · rintro ⟨rows, s1, outs, h1, h3, h4⟩
    exact runs_bind.2 ⟨rows, s1, h1, runs_collect.2 ⟨outs, h3, by simpa using h4⟩⟩

/-- The condition of a SELECT, evaluated for one source row: the row is transformed in a
copy `st.scopes.length` of the query's scope, giving the lazy row `cell`; then the condition
is evaluated with the source row and the lazy row as innermost variables.  Without a
condition nothing more happens. -/
def Verdict (H : Host F S) (all : Bool) (cols : List Col) (where_ : Option Comma) (s : Nat)
    (row : V F) (st : St F S) (cell : Nat) (b : Bool) (st' : St F S) : Prop :=
  ∃ s1, Runs H (transformP H all cols st.scopes.length row) (st.push s []) cell s1 ∧
    match where_ with
    | none => b = true ∧ st' = s1
    | some w => ∃ v s2,
        Runs H (call (.comma w s1.scopes.length))
          (s1.push st.scopes.length [row, .obj (.row cell)]) v s2 ∧
        Runs H (H.truth v s) s2 b st'

theorem runs_processRow {all : Bool} {cols : List Col} {where_ : Option Comma} {s : Nat} {row : V F}
    {st st' : St F S} {o : List (V F)} :
    Runs H (processRowP H all cols where_ s row) st o st' ↔
      ∃ cell b s1, Verdict H all cols where_ s row st cell b s1 ∧
        if b then ∃ d, Runs H (matRowP cell) s1 d st' ∧ o = [d] else o = [] ∧ st' = s1 := by
  unfold processRowP Verdict
  rw [runs_pb, copy_push]
  simp only [runs_bind]
  constructor
  · rintro ⟨cell, s1, h1, h2⟩
    cases where_ with
    | none =>
      obtain ⟨d, s2, h3, h4⟩ := runs_bind.1 h2
      obtain ⟨rfl, rfl⟩ := runs_pure.1 h4
      exact ⟨cell, true, s1, ⟨s1, h1, rfl, rfl⟩, d, h3, rfl⟩
    | some w =>
      simp only at h2
      rw [runs_pb, copy_push, runs_pb, append_push, runs_pb, append_push] at h2
      obtain ⟨v, s2, h3, h4⟩ := runs_bind.1 h2
      obtain ⟨b, s3, h5, h6⟩ := runs_bind.1 h4
      refine ⟨cell, b, s3, ⟨s1, h1, v, s2, h3, h5⟩, ?_⟩
      cases b
      · simpa using h6
      · simp only [if_true] at h6 ⊢
        obtain ⟨d, s2, h3, h4⟩ := runs_bind.1 h6
        obtain ⟨rfl, rfl⟩ := runs_pure.1 h4
        exact ⟨d, h3, rfl⟩
  · rintro ⟨cell, b, s1, ⟨s2, h1, h2⟩, h3⟩
    refine ⟨cell, s2, h1, ?_⟩
    cases where_ with
    | none =>
      obtain ⟨rfl, rfl⟩ := h2
      simp only [if_true] at h3
      obtain ⟨d, h3, rfl⟩ := h3
      exact runs_bind.2 ⟨d, _, h3, runs_pure.2 ⟨rfl, rfl⟩⟩
    | some w =>
      obtain ⟨v, s4, h4, h5⟩ := h2
      simp only
      rw [runs_pb, copy_push, runs_pb, append_push, runs_pb, append_push]
      refine runs_bind.2 ⟨v, s4, h4, runs_bind.2 ⟨b, s1, h5, ?_⟩⟩
      cases b
      · simpa using h3
      · simp only [if_true] at h3 ⊢
        obtain ⟨d, h3, rfl⟩ := h3
        exact runs_bind.2 ⟨d, _, h3, runs_pure.2 ⟨rfl, rfl⟩⟩

/-! ## Rows that answer like a dictionary -/

/-- The value `row` has the members `d`: asking for them and for their values changes
nothing. -/
structure Answers (H : Host F S) (row : V F) (d : OD (V F)) : Prop where
  members : ∀ (s : Nat) (st st' : St F S) r,
    Runs H (call (.members row s)) st r st' ↔ r = OD.keys d ∧ st' = st
  assoc : ∀ (k : Str), k ∈ OD.keys d → ∀ (s : Nat) (st st' : St F S) r,
    Runs H (call (.assoc row (.val (.str k)) s)) st r st' ↔ r = (OD.get d k, true) ∧ st' = st
  nodup : OD.WF d

theorem answers_dict {d : OD (V F)} (hw : OD.WF d) (hk : ∀ k ∈ OD.keys d, PlainKey k) :
    Answers H (.dict d) d where
  members s st st' r := runs_members_dict
  assoc k hk' s st st' r := by
    rw [runs_assoc_dict (hk k hk')]
    obtain ⟨v, hv⟩ := (OD.mem_keys_iff d k).1 hk'
    simp [dictAns, hv]
  nodup := hw

theorem answers_null : Answers H .null [] where
  members s st st' r := by
    rw [runs_call]
    simp [body, OD.keys]
  assoc k hk' := by simp [OD.keys] at hk'
  nodup := OD.wf_nil

/-- The columns a `*` adds: those of the source row that are not there yet. -/
def starCols (d : OD (V F)) (acc : List (Str × Getter F)) : List (Str × Getter F) :=
  acc ++ (d.filter (fun p => !hasCol acc p.1)).map (fun p => (p.1, .const p.2))

/-- The columns of an output row; `ns` is the scope of the column expressions. -/
def specCols (H : Host F S) (all : Bool) (cols : List Col) (ns : Nat) (d : OD (V F)) :
    List (Str × Getter F) :=
  cols.foldl (fun acc c =>
    if H.colName c = bs "*" then starCols d acc
    else acc ++ [(H.colName c, .col c (H.colName c) ns)]) (if all then starCols d [] else [])

omit [FloatOps F] in
theorem hasCol_append {a b : List (Str × Getter F)} {k : Str} :
    hasCol (a ++ b) k = (hasCol a k || hasCol b k) := by simp [hasCol]

theorem runs_star {row : V F} {d : OD (V F)} (ha : Answers H row d) {dedup : Bool} {s : Nat}
    {cols : List (Str × Getter F)} (h0 : dedup = true ∨ cols = [])
    {st st' : St F S} {r : List (Str × Getter F)} :
    Runs H (starP dedup s row cols) st r st' ↔ r = starCols d cols ∧ st' = st := by
  -- the loop over a suffix `d2` of the members
  have loop : ∀ (d1 d2 : OD (V F)), d = d1 ++ d2 → ∀ r st st',
      (Runs H (foldP (starStepP dedup s row) (starCols d1 cols) (OD.keys d2)) st r st' ↔
        r = starCols d cols ∧ st' = st) := by
    intro d1 d2
    induction d2 generalizing d1 with
    | nil => intro e r st st'; simp at e; subst e; simp [OD.keys, foldP]
    | cons p d2 ih =>
      intro e r st st'
      obtain ⟨k, v⟩ := p
      have hw := ha.nodup
      have hd : d = (d1 ++ [(k, v)]) ++ d2 := by simp [e]
      have hkd : k ∉ OD.keys d1 := by
        unfold OD.WF at hw
        rw [e, OD.keys_append] at hw
        intro hm
        exact (List.nodup_append.1 hw).2.2 k hm k (by simp [OD.keys]) rfl
      have hget : OD.get d k = some v := OD.get_of_mem hw (by simp [e])
      have hkm : k ∈ OD.keys d := (OD.mem_keys_iff d k).2 ⟨v, hget⟩
      have hcol : hasCol (starCols d1 cols) k = hasCol cols k := by
        unfold starCols
        rw [hasCol_append]
        have : hasCol ((d1.filter (fun p => !hasCol cols p.1)).map (fun p => (p.1, (Getter.const p.2 : Getter F)))) k = false := by
          rw [hasCol, Bool.eq_false_iff]
          intro hc
          simp only [List.any_map, List.any_eq_true, Function.comp, decide_eq_true_eq] at hc
          obtain ⟨x, hx, hxe⟩ := hc
          exact hkd (List.mem_map.2 ⟨x, (List.mem_filter.1 hx).1, hxe⟩)
        rw [this]; simp
      have e1 : OD.keys ((k, v) :: d2) = k :: OD.keys d2 := rfl
      rw [e1]
      simp only [foldP, runs_bind, starStepP]
      have hstar : ∀ b, hasCol cols k = b → starCols (d1 ++ [(k, v)]) cols =
          if b then starCols d1 cols else starCols d1 cols ++ [(k, .const v)] := by
        intro b hb
        unfold starCols
        rw [List.filter_append]
        cases b <;> simp [hb]
      by_cases hc : dedup = true ∧ hasCol cols k = true
      · rw [if_pos (by rw [hcol]; exact hc)]
        have hs := hstar true hc.2
        simp only [if_true] at hs
        rw [← hs]
        constructor
        · rintro ⟨a, s1, h1, h2⟩
          obtain ⟨rfl, rfl⟩ := runs_pure.1 h1
          exact (ih _ hd _ _ _).1 h2
        · intro h
          exact ⟨_, _, runs_pure.2 ⟨rfl, rfl⟩, (ih _ hd _ _ _).2 h⟩
      · rw [if_neg (by rw [hcol]; exact hc)]
        have hcf : hasCol cols k = false := by
          rcases h0 with h0 | h0
          · simpa [h0] using hc
          · subst h0; rfl
        have hs := hstar false hcf
        simp only [Bool.false_eq_true, if_false] at hs
        constructor
        · rintro ⟨a, s1, h1, h2⟩
          obtain ⟨⟨e, b⟩, s2, h3, h4⟩ := runs_bind.1 h1
          obtain ⟨h5, rfl⟩ := (ha.assoc k hkm _ _ _ _).1 h3
          simp only [Prod.mk.injEq] at h5
          obtain ⟨rfl, rfl⟩ := h5
          obtain ⟨rfl, rfl⟩ := runs_pure.1 h4
          rw [hget, Option.getD_some, ← hs] at h2
          exact (ih _ hd _ _ _).1 h2
        · intro h
          refine ⟨starCols (d1 ++ [(k, v)]) cols, st, runs_bind.2 ⟨(OD.get d k, true), st,
            (ha.assoc k hkm _ _ _ _).2 ⟨rfl, rfl⟩, ?_⟩, (ih _ hd _ _ _).2 h⟩
          simp only [hget, Option.getD_some]
          rw [hs]
          exact runs_pure.2 ⟨rfl, rfl⟩
  have h00 : starCols [] cols = cols := by simp [starCols]
  unfold starP
  have := loop [] d rfl
  rw [h00] at this
  constructor
  · intro h
    obtain ⟨ms, s1, h1, h2⟩ := runs_bind.1 h
    obtain ⟨rfl, rfl⟩ := (ha.members _ _ _ _).1 h1
    exact (this _ _ _).1 h2
  · intro h
    exact runs_bind.2 ⟨_, _, (ha.members _ _ _ _).2 ⟨rfl, rfl⟩, (this _ _ _).2 h⟩

theorem runs_transform {row : V F} {d : OD (V F)} (ha : Answers H row d) {all : Bool}
    {cols : List Col} {s : Nat} {st st' : St F S} {cell : Nat} :
    Runs H (transformP H all cols s row) st cell st' ↔
      cell = st.rows.length ∧
      st' = (st.push s [row]).addRow (specCols H all cols st.scopes.length d) := by
  have hinit : ∀ r st', Runs H (allColsP all s row) st r st' ↔
      r = (if all then starCols d [] else []) ∧ st' = st := by
    intro r st'
    unfold allColsP
    cases all
    · simp
    · simp only [if_true]
      exact runs_star ha (Or.inr rfl)
  have hloop : ∀ (cols : List Col) acc (st : St F S) r st',
      Runs H (foldP (addColP H s st.scopes.length row) acc cols) (st.push s [row]) r st' ↔
      r = cols.foldl (fun acc c =>
        if H.colName c = bs "*" then starCols d acc
        else acc ++ [(H.colName c, .col c (H.colName c) st.scopes.length)]) acc ∧
      st' = st.push s [row] := by
    intro cols
    induction cols with
    | nil => intro acc st r st'; simp [foldP]
    | cons c cols ih =>
      intro acc st r st'
      have hc : ∀ r1 s1, Runs H (addColP H s st.scopes.length row acc c) (st.push s [row]) r1 s1 ↔
          r1 = (if H.colName c = bs "*" then starCols d acc
            else acc ++ [(H.colName c, .col c (H.colName c) st.scopes.length)]) ∧ s1 = st.push s [row] := by
        intro r1 s1
        unfold addColP
        split
        · exact runs_star ha (Or.inl rfl)
        · exact runs_pure
      simp only [foldP, runs_bind, List.foldl_cons]
      constructor
      · rintro ⟨a, s1, h1, h2⟩
        obtain ⟨rfl, rfl⟩ := (hc _ _).1 h1
        exact (ih _ _ _ _).1 h2
      · intro h
        exact ⟨_, _, (hc _ _).2 ⟨rfl, rfl⟩, (ih _ _ _ _).2 h⟩
  unfold transformP
  constructor
  · intro h
    obtain ⟨i, s1, h1, h2⟩ := runs_bind.1 h
    obtain ⟨rfl, rfl⟩ := (hinit _ _).1 h1
    rw [runs_pb, copy_push, runs_pb, append_push] at h2
    obtain ⟨g, s2, h3, h4⟩ := runs_bind.1 h2
    obtain ⟨rfl, rfl⟩ := (hloop _ _ _ _ _).1 h3
    obtain ⟨rfl, rfl⟩ := runs_prim.1 h4
    exact ⟨rfl, rfl⟩
  · rintro ⟨rfl, rfl⟩
    refine runs_bind.2 ⟨_, _, (hinit _ _).2 ⟨rfl, rfl⟩, ?_⟩
    rw [runs_pb, copy_push, runs_pb, append_push]
    refine runs_bind.2 ⟨_, _, (hloop _ _ _ _ _).2 ⟨rfl, rfl⟩, ?_⟩
    exact runs_prim.2 ⟨rfl, rfl⟩

/-! ## Materializing a lazy row -/

omit [FloatOps F] in
theorem getter_of_mem {r : RowCell F} {k : Str} (h : k ∈ r.cols.map (·.1)) :
    ∃ g, r.getter k = some g ∧ (k, g) ∈ r.cols := by
  obtain ⟨p, hp, rfl⟩ := List.mem_map.1 h
  unfold RowCell.getter
  cases hf : r.cols.reverse.find? (fun q => decide (q.1 = p.1)) with
  | none =>
    have := List.find?_eq_none.1 hf p (by simpa using hp)
    simp at this
  | some q =>
    refine ⟨q.2, rfl, ?_⟩
    have h1 := List.find?_some hf
    simp only [decide_eq_true_eq] at h1
    have h2 := List.mem_of_find?_eq_some hf
    rw [← h1]
    simpa using h2

theorem runs_matRow {cell : Nat} {r : RowCell F} {st st' : St F S} {out : V F}
    (hr : st.rows[cell]? = some r) :
    Runs H (matRowP cell) st out st' ↔
      ∃ d, Runs H (foldP (matColP cell) [] (r.cols.map (·.1))) st d st' ∧ out = .dict d := by
  unfold matRowP
  rw [runs_pb]
  simp only [Prim.step, hr, runs_bind]
  constructor
  · rintro ⟨d, s1, h1, h2⟩
    obtain ⟨rfl, rfl⟩ := runs_pure.1 h2
    exact ⟨d, h1, rfl⟩
  · rintro ⟨d, h1, rfl⟩
    exact ⟨d, _, h1, runs_pure.2 ⟨rfl, rfl⟩⟩

/-- The value of a column of a lazy row: from the cache, else from its getter. -/
def ColVal (H : Host F S) (r : RowCell F) (k : Str) (st : St F S) (v : V F) (st' : St F S) : Prop :=
  match OD.get r.cache k with
  | some w => v = w ∧ st' = st
  | none => ∃ g, r.getter k = some g ∧ Runs H (call (.getter g)) st v st'

theorem runs_matCol {cell : Nat} {r : RowCell F} {k : Str} {acc acc' : OD (V F)} {st st' : St F S}
    (hr : st.rows[cell]? = some r) (hk : k ∈ r.cols.map (·.1)) :
    Runs H (matColP cell acc k) st acc' st' ↔
      ∃ v, ColVal H r k st v st' ∧ acc' = OD.set acc k v := by
  obtain ⟨g, hg, _⟩ := getter_of_mem hk
  unfold matColP ColVal
  rw [runs_pb]
  simp only [Prim.step, hr]
  cases hc : OD.get r.cache k with
  | some w =>
    simp only [runs_pure]
    constructor
    · rintro ⟨rfl, rfl⟩; exact ⟨w, ⟨rfl, rfl⟩, rfl⟩
    · rintro ⟨v, ⟨rfl, rfl⟩, rfl⟩; exact ⟨rfl, rfl⟩
  | none =>
    simp only [hg]
    constructor
    · intro h
      obtain ⟨v, s1, h1, h2⟩ := runs_bind.1 h
      obtain ⟨rfl, rfl⟩ := runs_pure.1 h2
      exact ⟨v, ⟨g, rfl, h1⟩, rfl⟩
    · rintro ⟨v, ⟨g', hg', h1⟩, rfl⟩
      cases hg'
      exact runs_bind.2 ⟨v, _, h1, runs_pure.2 ⟨rfl, rfl⟩⟩

/-- What setting keys one after the other leaves: every key once, at its last place. -/
def lastKeys (acc : List Str) (ks : List Str) : List Str :=
  ks.foldl (fun acc k => acc.filter (fun x => decide (x ≠ k)) ++ [k]) acc

omit [FloatOps F] in
theorem keys_set_filter {A : Type} (d : OD A) (k : Str) (v : A) :
    OD.keys (OD.set d k v) = (OD.keys d).filter (fun x => decide (x ≠ k)) ++ [k] := by
  unfold OD.set OD.keys OD.erase
  rw [List.map_append, List.filter_map]
  rfl

theorem matCols_keys {cell : Nat} {cs : List (Str × Getter F)} : ∀ (ks : List Str),
    (∀ k ∈ ks, k ∈ cs.map (·.1)) → ∀ (acc d : OD (V F)) (st st' : St F S),
    (∃ r, st.rows[cell]? = some r ∧ r.cols = cs) →
    Runs H (foldP (matColP cell) acc ks) st d st' → OD.keys d = lastKeys (OD.keys acc) ks
  | [], _, acc, d, st, st', _, h => by
    simp only [foldP, runs_pure] at h
    rw [h.1]; rfl
  | k :: ks, hk, acc, d, st, st', ⟨r, hr, hc⟩, h => by
    simp only [foldP, runs_bind] at h
    obtain ⟨a, s1, h1, h2⟩ := h
    obtain ⟨v, hv, rfl⟩ := (runs_matCol hr (by rw [hc]; exact hk k (by simp))).1 h1
    obtain ⟨r1, hr1, hc1⟩ := h1.grows.rows cell r hr
    have := matCols_keys ks (fun k hk' => hk k (by simp [hk'])) _ d s1 st' ⟨r1, hr1, hc1.trans hc⟩ h2
    rw [this, keys_set_filter]
    rfl

/-- Materializing a lazy row gives a dictionary with its columns. -/
theorem matRow_keys {cell : Nat} {r : RowCell F} {st st' : St F S} {out : V F}
    (hr : st.rows[cell]? = some r) (h : Runs H (matRowP cell) st out st') :
    ∃ d, out = .dict d ∧ OD.keys d = lastKeys [] (r.cols.map (·.1)) := by
  obtain ⟨d, h1, rfl⟩ := (runs_matRow hr).1 h
  exact ⟨d, rfl, matCols_keys _ (fun k hk => hk) [] d st st' ⟨r, hr, rfl⟩ h1⟩

omit [FloatOps F] in
theorem getter_const {r : RowCell F} {d : OD (V F)} (hd : OD.WF d)
    (hc : r.cols = d.map (fun p => (p.1, .const p.2))) {k : Str} {v : V F} (hk : OD.get d k = some v) :
    r.getter k = some (.const v) := by
  have hm : k ∈ r.cols.map (·.1) := by
    rw [hc, List.map_map]
    exact List.mem_map.2 ⟨(k, v), OD.mem_of_get hk, rfl⟩
  obtain ⟨g, hg, hmem⟩ := getter_of_mem hm
  rw [hc] at hmem
  obtain ⟨p, hp, he⟩ := List.mem_map.1 hmem
  obtain ⟨k', v'⟩ := p
  simp only [Prod.mk.injEq] at he
  obtain ⟨rfl, rfl⟩ := he
  have := OD.get_of_mem hd hp
  rw [hk] at this
  cases this
  exact hg

theorem matCols_const {cell : Nat} {d : OD (V F)} (hd : OD.WF d) {r : RowCell F} {st st' : St F S}
    (hst : ConstOK st) (hr : st.rows[cell]? = some r)
    (hc : r.cols = d.map (fun p => (p.1, .const p.2))) : ∀ (d2 d1 : OD (V F)) (out : OD (V F)), d1 ++ d2 = d →
    (Runs H (foldP (matColP cell) d1 (OD.keys d2)) st out st' ↔ out = d ∧ st' = st)
  | [], d1, out, he => by
    simp only [List.append_nil] at he
    subst he
    simp [OD.keys, foldP]
  | (k, v) :: d2, d1, out, he => by
    have hget : OD.get d k = some v := OD.get_of_mem hd (by simp [← he])
    have hg := getter_const hd hc hget
    have hkd : k ∉ OD.keys d1 := by
      unfold OD.WF at hd
      rw [← he, OD.keys_append] at hd
      intro hm
      exact (List.nodup_append.1 hd).2.2 k hm k (by simp [OD.keys]) rfl
    have hm : k ∈ r.cols.map (·.1) := by
      rw [hc, List.map_map]
      exact List.mem_map.2 ⟨(k, v), OD.mem_of_get hget, rfl⟩
    have hcv : ∀ w s1, ColVal H r k st w s1 ↔ w = v ∧ s1 = st := by
      intro w s1
      unfold ColVal
      cases hca : OD.get r.cache k with
      | some x =>
        obtain ⟨g, hg', hgv⟩ := hst cell r hr k x hca
        rw [hg] at hg'
        cases hg'
        have := hgv v rfl
        subst this
        exact Iff.rfl
      | none =>
        simp only [hg, Option.some.injEq]
        constructor
        · rintro ⟨g, rfl, h⟩
          rw [runs_call] at h
          simpa [body] using h
        · rintro ⟨rfl, rfl⟩
          refine ⟨_, rfl, ?_⟩
          rw [runs_call]
          simp [body]
    have e1 : OD.keys ((k, v) :: d2) = k :: OD.keys d2 := rfl
    rw [e1]
    simp only [foldP, runs_bind]
    have hset : OD.set d1 k v = d1 ++ [(k, v)] := OD.set_of_not_mem _ _ hkd
    constructor
    · rintro ⟨a, s1, h1, h2⟩
      obtain ⟨w, hw, rfl⟩ := (runs_matCol hr hm).1 h1
      obtain ⟨rfl, rfl⟩ := (hcv _ _).1 hw
      rw [hset] at h2
      exact (matCols_const hd hst hr hc d2 _ out (by simp [← he])).1 h2
    · intro h
      refine ⟨d1 ++ [(k, v)], st, (runs_matCol hr hm).2 ⟨v, (hcv _ _).2 ⟨rfl, rfl⟩, hset.symm⟩, ?_⟩
      exact (matCols_const hd hst hr hc d2 _ out (by simp [← he])).2 h

/-- Materializing the lazy row of `SELECT *` gives the source row back. -/
theorem matRow_const {cell : Nat} {d : OD (V F)} (hd : OD.WF d) {r : RowCell F} {st st' : St F S}
    {out : V F} (hst : ConstOK st) (hr : st.rows[cell]? = some r)
    (hc : r.cols = d.map (fun p => (p.1, .const p.2))) :
    Runs H (matRowP cell) st out st' ↔ out = .dict d ∧ st' = st := by
  have hn : r.cols.map (·.1) = OD.keys d := by
    rw [hc, List.map_map]; rfl
  rw [runs_matRow hr, hn]
  constructor
  · rintro ⟨d', h, rfl⟩
    obtain ⟨rfl, rfl⟩ := (matCols_const hd hst hr hc d [] d' rfl).1 h
    exact ⟨rfl, rfl⟩
  · rintro ⟨rfl, rfl⟩
    exact ⟨d, (matCols_const hd hst hr hc d [] d rfl).2 ⟨rfl, rfl⟩, rfl⟩

/-! ## LIMIT, ORDER BY, GROUP BY -/

theorem runs_select_limit {ex all : Bool} {cols : List Col} {from_ : Plugin} {where_ : Option Comma}
    {gb : Option Comma} {ob : Option (Str × Bool)} {n : I64}
    {s : Nat} {st st' : St F S} {out : List (V F)} :
    Runs H (call (.select (.mk ex all cols from_ where_ gb ob (some n)) s)) st out st' ↔
      ∃ rows, Runs H (call (.select (.mk ex all cols from_ where_ gb ob none) s)) st rows st' ∧
        out = rows.take (limitCount n) := by
  conv => lhs; rw [runs_call]
  simp only [body]
  constructor
  · intro h
    obtain ⟨rows, s1, h1, h2⟩ := runs_bind.1 h
    obtain ⟨rfl, rfl⟩ := runs_pure.1 h2
    exact ⟨rows, h1, rfl⟩
  · rintro ⟨rows, h1, rfl⟩
    exact runs_bind.2 ⟨rows, _, h1, runs_pure.2 ⟨rfl, rfl⟩⟩

theorem runs_select_order {ex all : Bool} {cols : List Col} {from_ : Plugin} {where_ : Option Comma}
    {k : Str} {desc : Bool} {s : Nat} {st st' : St F S} {out : List (V F)} :
    Runs H (call (.select (.mk ex all cols from_ where_ none (some (k, desc)) none) s)) st out st' ↔
      ∃ rows s1, Runs H (call (.select (.mk ex all cols from_ where_ none none none) s)) st rows s1 ∧
        Runs H (H.sort (ident k) desc rows s) s1 out st' := by
  conv => lhs; rw [runs_call]
  simp only [body]
  exact runs_bind

theorem runs_select_group {ex all : Bool} {cols : List Col} {from_ : Plugin} {where_ : Option Comma}
    {gb : Comma} {s : Nat} {st st' : St F S} {out : List (V F)} :
    Runs H (call (.select (.mk ex all cols from_ where_ (some gb) none none) s)) st out st' ↔
      ∃ rows s1 bins, Runs H (call (.plugin from_ s)) st rows s1 ∧
        Runs H (foldP (groupRowP H all cols where_ gb s1.scopes.length) [] rows) (s1.push s []) bins st' ∧
        out = bins.map (fun b => b.2.row) := by
  conv => lhs; rw [runs_call]
  simp only [body]
  constructor
  · intro h
    obtain ⟨rows, s1, h1, h2⟩ := runs_bind.1 h
    rw [runs_pb, copy_push] at h2
    obtain ⟨bins, s2, h3, h4⟩ := runs_bind.1 h2
    obtain ⟨rfl, rfl⟩ := runs_pure.1 h4
    exact ⟨rows, s1, bins, h1, h3, rfl⟩
  · rintro ⟨rows, s1, bins, h1, h3, rfl⟩
    refine runs_bind.2 ⟨rows, s1, h1, ?_⟩
    rw [runs_pb, copy_push]
    exact runs_bind.2 ⟨bins, _, h3, runs_pure.2 ⟨rfl, rfl⟩⟩

theorem runs_select_group_order {ex all : Bool} {cols : List Col} {from_ : Plugin}
    {where_ : Option Comma} {gb : Comma} {k : Str} {desc : Bool} {s : Nat} {st st' : St F S}
    {out : List (V F)} :
    Runs H (call (.select (.mk ex all cols from_ where_ (some gb) (some (k, desc)) none) s)) st out st' ↔
      ∃ rows s1, Runs H (call (.select (.mk ex all cols from_ where_ (some gb) none none) s)) st rows s1 ∧
        Runs H (H.sort (ident k) desc rows s) s1 out st' := by
  constructor
  · intro h
    rw [runs_call] at h
    simp only [body] at h
    obtain ⟨rows, s1, h1, h2⟩ := runs_bind.1 h
    rw [runs_pb, copy_push] at h2
    obtain ⟨bins, s2, h3, h4⟩ := runs_bind.1 h2
    exact ⟨_, s2, runs_select_group.2 ⟨rows, s1, bins, h1, h3, rfl⟩, h4⟩
  · rintro ⟨rows0, s2, h0, h2⟩
    obtain ⟨rows, s1, bins, h1, h3, rfl⟩ := runs_select_group.1 h0
    rw [runs_call]
    simp only [body]
    refine runs_bind.2 ⟨rows, s1, h1, ?_⟩
    rw [runs_pb, copy_push]
    exact runs_bind.2 ⟨bins, _, h3, h2⟩

/-! ## All rows of a SELECT are dictionaries -/

/-- The result is a dictionary. -/
def IsDict (v : V F) : Prop := ∃ d, v = .dict d

omit [FloatOps F] in
theorem all_dicts : ∀ (l : List (V F)), (∀ v ∈ l, IsDict v) → ∃ ds : List (OD (V F)), l = ds.map .dict
  | [], _ => ⟨[], rfl⟩
  | x :: xs, h => by
    obtain ⟨d, rfl⟩ := h x (by simp)
    obtain ⟨ds, rfl⟩ := all_dicts xs (fun v hv => h v (by simp [hv]))
    exact ⟨d :: ds, rfl⟩

/-- The sorter only returns rows it was given. -/
def SortOK (H : Host F S) : Prop :=
  ∀ k desc l s st out st', Runs H (H.sort k desc l s) st out st' → ∀ x ∈ out, x ∈ l

omit [FloatOps F] in
theorem Each.mem {α β : Type} {R : α → St F S → β → St F S → Prop} {l : List α} {bs : List β}
    {st st' : St F S} (h : Each R l st bs st') : ∀ b ∈ bs, ∃ a ∈ l, ∃ s1 s2, R a s1 b s2 := by
  induction h with
  | nil => simp
  | cons h1 _ ih =>
    intro b hb
    rcases List.mem_cons.1 hb with rfl | hb
    · exact ⟨_, by simp, _, _, h1⟩
    · obtain ⟨a, ha, x⟩ := ih b hb
      exact ⟨a, by simp [ha], x⟩

/-- A transform creates a lazy row. -/
theorem transform_cell {all : Bool} {cols : List Col} {s : Nat} {row : V F} {st st' : St F S} {cell : Nat}
    (h : Runs H (transformP H all cols s row) st cell st') :
    ∃ cs, st'.rows[cell]? = some ⟨cs, []⟩ := by
  unfold transformP at h
  obtain ⟨i, s1, h1, h2⟩ := runs_bind.1 h
  rw [runs_pb, runs_pb] at h2
  obtain ⟨g, s2, h3, h4⟩ := runs_bind.1 h2
  obtain ⟨rfl, rfl⟩ := runs_prim.1 h4
  exact ⟨g, by simp [Prim.step]⟩

theorem verdict_cell {all : Bool} {cols : List Col} {where_ : Option Comma} {s : Nat}
    {row : V F} {st : St F S} {cell : Nat} {b : Bool} {st' : St F S}
    (h : Verdict H all cols where_ s row st cell b st') : ∃ r, st'.rows[cell]? = some r := by
  obtain ⟨s1, h1, h2⟩ := h
  obtain ⟨cs, hc⟩ := transform_cell h1
  cases where_ with
  | none => obtain ⟨_, rfl⟩ := h2; exact ⟨_, hc⟩
  | some w =>
    obtain ⟨v, s2, h3, h4⟩ := h2
    obtain ⟨r1, hr1, _⟩ := h3.grows.rows cell _ (by simpa using hc)
    obtain ⟨r2, hr2, _⟩ := h4.grows.rows cell _ hr1
    exact ⟨r2, hr2⟩

theorem groupRow_bins {all : Bool} {cols : List Col} {where_ : Option Comma} {gb : Comma} {g : Nat}
    {row : V F} {bins bins' : OD (Bin F)} {st st' : St F S}
    (h : Runs H (groupRowP H all cols where_ gb g bins row) st bins' st') :
    bins' = bins ∨ ∃ k c out cell s1, (∃ r, s1.rows[cell]? = some r) ∧
      Runs H (matRowP cell) s1 out st' ∧ bins' = OD.update bins k ⟨c, out⟩ := by
  unfold groupRowP at h
  rw [runs_pb] at h
  obtain ⟨cell, s1, h1, h2⟩ := runs_bind.1 h
  obtain ⟨cs, hc⟩ := transform_cell h1
  rw [runs_pb, runs_pb] at h2
  obtain ⟨pass, s2, h3, h4⟩ := runs_bind.1 h2
  obtain ⟨r2, hr2, _⟩ := h3.grows.rows cell _ (by simpa [Prim.step, St.appendVar] using hc)
  cases pass with
  | false =>
    simp only [if_true] at h4
    exact Or.inl (runs_pure.1 h4).1
  | true =>
    simp only [Bool.true_eq_false, if_false] at h4
    obtain ⟨k, s3, h5, h6⟩ := runs_bind.1 h4
    obtain ⟨key, s4, h7, h8⟩ := runs_bind.1 h6
    obtain ⟨c, s5, h9, h10⟩ := runs_bind.1 h8
    rw [runs_pb] at h10
    obtain ⟨out, s6, h11, h12⟩ := runs_bind.1 h10
    obtain ⟨rfl, rfl⟩ := runs_pure.1 h12
    obtain ⟨r3, hr3, _⟩ := h5.grows.rows cell _ hr2
    obtain ⟨r4, hr4, _⟩ := h7.grows.rows cell _ hr3
    obtain ⟨r5, hr5, _⟩ := h9.grows.rows cell _ hr4
    exact Or.inr ⟨key, c, out, cell, _, ⟨r5, by simpa [Prim.step, St.setAg] using hr5⟩, h11, rfl⟩

omit [FloatOps F] in
theorem mem_update {A : Type} {d : OD A} {k : Str} {v : A} {p : Str × A} (h : p ∈ OD.update d k v) :
    p ∈ d ∨ p = (k, v) := by
  unfold OD.update at h
  split at h
  · obtain ⟨q, hq, rfl⟩ := List.mem_map.1 h
    split
    · exact Or.inr rfl
    · exact Or.inl hq
  · rcases List.mem_append.1 h with h | h
    · exact Or.inl h
    · exact Or.inr (by simpa using h)

theorem group_dicts {all : Bool} {cols : List Col} {where_ : Option Comma} {gb : Comma} {g : Nat} :
    ∀ (rows : List (V F)) (bins bins' : OD (Bin F)) (st st' : St F S),
    (∀ p ∈ bins, IsDict p.2.row) →
    Runs H (foldP (groupRowP H all cols where_ gb g) bins rows) st bins' st' →
    ∀ p ∈ bins', IsDict p.2.row
  | [], bins, bins', st, st', hb, h => by
    obtain ⟨rfl, rfl⟩ := runs_pure.1 h
    exact hb
  | row :: rows, bins, bins', st, st', hb, h => by
    obtain ⟨b1, s1, h1, h2⟩ := runs_bind.1 h
    refine group_dicts rows b1 bins' s1 st' ?_ h2
    rcases groupRow_bins h1 with rfl | ⟨k, c, out, cell, s2, ⟨r, hr⟩, hm, rfl⟩
    · exact hb
    · intro p hp
      rcases mem_update hp with hp | rfl
      · exact hb p hp
      · obtain ⟨d, hd, _⟩ := matRow_keys hr hm
        exact ⟨d, hd⟩

theorem select_dicts_plain {ex all : Bool} {cols : List Col} {from_ : Plugin} {where_ : Option Comma}
    {s : Nat} {st st' : St F S} {out : List (V F)}
    (h : Runs H (call (.select (.mk ex all cols from_ where_ none none none) s)) st out st') :
    ∀ v ∈ out, IsDict v := by
  obtain ⟨rows, s1, outs, h1, h2, rfl⟩ := runs_select.1 h
  intro v hv
  obtain ⟨o, ho, hv⟩ := List.mem_flatten.1 hv
  obtain ⟨row, _, a, b, hr⟩ := h2.mem o ho
  obtain ⟨cell, bb, s2, h3, h4⟩ := runs_processRow.1 hr
  cases bb with
  | false =>
    simp only [Bool.false_eq_true, if_false] at h4
    rw [h4.1] at hv; simp at hv
  | true =>
    simp only [if_true] at h4
    obtain ⟨d, h5, rfl⟩ := h4
    obtain ⟨r, hr⟩ := verdict_cell h3
    obtain ⟨d', hd', _⟩ := matRow_keys hr h5
    simp only [List.mem_singleton] at hv
    exact ⟨d', hv.trans hd'⟩

/-- All rows of a SELECT are dictionaries. -/
theorem select_dicts (hs : SortOK H) {q : Select} {s : Nat} {st st' : St F S} {out : List (V F)}
    (h : Runs H (call (.select q s)) st out st') : ∀ v ∈ out, IsDict v := by
  obtain ⟨ex, all, cols, from_, where_, gb, ob, lim⟩ := q
  have hgroup : ∀ gb st st' out, Runs H (call (.select (.mk ex all cols from_ where_ (some gb) none none) s))
      st out st' → ∀ v ∈ out, IsDict v := by
    intro gb st st' out h
    obtain ⟨rows, s1, bins, h1, h3, rfl⟩ := runs_select_group.1 h
    intro v hv
    obtain ⟨p, hp, rfl⟩ := List.mem_map.1 hv
    exact group_dicts rows [] bins _ _ (by simp) h3 p hp
  have hnolim : ∀ st st' out, Runs H (call (.select (.mk ex all cols from_ where_ gb ob none) s)) st out st' →
      ∀ v ∈ out, IsDict v := by
    intro st st' out h
    cases gb with
    | none =>
      cases ob with
      | none => exact select_dicts_plain h
      | some kd =>
        obtain ⟨k, desc⟩ := kd
        obtain ⟨rows, s1, h1, h2⟩ := runs_select_order.1 h
        exact fun v hv => select_dicts_plain h1 v (hs _ _ _ _ _ _ _ h2 v hv)
    | some gb =>
      cases ob with
      | none => exact hgroup gb _ _ _ h
      | some kd =>
        obtain ⟨k, desc⟩ := kd
        obtain ⟨rows, s1, h1, h2⟩ := runs_select_group_order.1 h
        exact fun v hv => hgroup gb _ _ _ h1 v (hs _ _ _ _ _ _ _ h2 v hv)
  cases lim with
  | none => exact hnolim _ _ _ h
  | some n =>
    obtain ⟨rows, h1, rfl⟩ := runs_select_limit.1 h
    exact fun v hv => hnolim _ _ _ h1 v (List.mem_of_mem_take hv)

end
end Vfilter.Vql
