import Verif.Props.EvalWhere
/-!
# C30: GROUP BY partitions the rows
-/
set_option linter.all false

namespace Vfilter.Vql

/-! ## Keys in order of first appearance, last entry per key -/

/-- The distinct elements in order of first appearance. -/
def firstKeys (l : List Str) : List Str := l.foldl (fun acc k => if k ∈ acc then acc else acc ++ [k]) []

theorem firstKeys_append (l : List Str) (k : Str) :
    firstKeys (l ++ [k]) = if k ∈ firstKeys l then firstKeys l else firstKeys l ++ [k] := by
  unfold firstKeys
  rw [List.foldl_append]
  rfl

theorem mem_firstKeys {l : List Str} {k : Str} : k ∈ firstKeys l ↔ k ∈ l := by
  induction l using List.reverseRecOn with
  | nil => simp [firstKeys]
  | append_singleton l x ih =>
    rw [firstKeys_append]
    split
    · rename_i h
      simp only [ih, List.mem_append, List.mem_singleton]
      constructor
      · exact .inl
      · rintro (h' | rfl)
        · exact h'
        · exact ih.1 h
    · simp only [List.mem_append, ih]

theorem firstKeys_nodup (l : List Str) : (firstKeys l).Nodup := by
  induction l using List.reverseRecOn with
  | nil => simp [firstKeys]
  | append_singleton l x ih =>
    rw [firstKeys_append]
    split
    · exact ih
    · rename_i h
      exact List.nodup_append.2 ⟨ih, by simp, by
        intro a ha b hb
        simp only [List.mem_singleton] at hb
        rintro rfl
        exact h (hb ▸ ha)⟩

section
variable {F S : Type} [FloatOps F] {H : Host F S}

/-- A row that passed WHERE: its group, the aggregator context it was computed with, and the
row computed for it. -/
structure Entry (F : Type) where
  key : Str
  ctx : Nat
  out : V F

/-- The last entry of a group. -/
def lastOf (k : Str) (hist : List (Entry F)) : Option (Entry F) := hist.reverse.find? (fun e => decide (e.key = k))

omit [FloatOps F] in
theorem lastOf_append (k : Str) (hist : List (Entry F)) (e : Entry F) :
    lastOf k (hist ++ [e]) = if e.key = k then some e else lastOf k hist := by
  unfold lastOf
  rw [List.reverse_append]
  simp only [List.reverse_cons, List.reverse_nil, List.nil_append, List.singleton_append, List.find?_cons]
  split <;> simp_all

/-- The rows of the groups: one for each distinct key in order of first appearance, the row of
the last entry with that key. -/
def groupRows (hist : List (Entry F)) : List (V F) :=
  (firstKeys (hist.map (·.key))).filterMap (fun k => (lastOf k hist).map (·.out))

/-! ## One row -/

/-- What happens to a source row before it is assigned to a group: the columns are set up in a
new scope `ns`, WHERE is evaluated where the columns are visible, and if it is truthy the
group key is evaluated there too. -/
def Keyed (H : Host F S) (all : Bool) (cols : List Col) (where_ : Option Comma) (gb : Comma) (g : Nat)
    (row : V F) (st : St F S) (res : Option (Str × Nat)) (st' : St F S) : Prop :=
  ∃ cell s1 b s2, Runs H (transformP H all cols st.scopes.length row) (st.push g []) cell s1 ∧
    Runs H (passP H where_ st.scopes.length g)
      ((s1.appendVar st.scopes.length row).appendVar st.scopes.length (.obj (.row cell))) b s2 ∧
    if b then ∃ v s3 k, Runs H (call (.comma gb st.scopes.length)) s2 v s3 ∧
      Runs H (H.toStr v st.scopes.length) s3 k st' ∧ res = some (k, cell)
    else res = none ∧ st' = s2

/-- One row of a GROUP BY given the entries before it. -/
def GroupStep (H : Host F S) (all : Bool) (cols : List Col) (where_ : Option Comma) (gb : Comma) (g : Nat)
    (hist : List (Entry F)) (row : V F) (st : St F S) (new : List (Entry F)) (st' : St F S) : Prop :=
  ∃ res s1, Keyed H all cols where_ gb g row st res s1 ∧
    match res with
    | none => new = [] ∧ st' = s1
    | some (k, cell) => ∃ c s2 out,
        (match lastOf k hist with
          | some e => c = e.ctx ∧ s2 = s1
          | none => c = s1.ctxs.length ∧ s2 = { s1 with ctxs := s1.ctxs ++ [[]] }) ∧
        Runs H (matRowP cell) (s2.setAg st.scopes.length c) out st' ∧ new = [⟨k, c, out⟩]

/-- The rows of a GROUP BY one after the other. -/
inductive Grouped (H : Host F S) (all : Bool) (cols : List Col) (where_ : Option Comma) (gb : Comma) (g : Nat) :
    List (Entry F) → List (V F) → St F S → List (Entry F) → St F S → Prop where
  | nil (hist : List (Entry F)) (st : St F S) : Grouped H all cols where_ gb g hist [] st hist st
  | cons {hist new out : List (Entry F)} {row : V F} {rows : List (V F)} {st s1 s2 : St F S} :
      GroupStep H all cols where_ gb g hist row st new s1 →
      Grouped H all cols where_ gb g (hist ++ new) rows s1 out s2 →
      Grouped H all cols where_ gb g hist (row :: rows) st out s2

/-- The bins of the grouper for these entries. -/
structure Binned (bins : OD (Bin F)) (hist : List (Entry F)) : Prop where
  keys : OD.keys bins = firstKeys (hist.map (·.key))
  get : ∀ k, OD.get bins k = (lastOf k hist).map (fun e => ⟨e.ctx, e.out⟩)

omit [FloatOps F] in
theorem get_update {A : Type} (d : OD A) (k k' : Str) (v : A) :
    OD.get (OD.update d k v) k' = if k' = k then some v else OD.get d k' := by
  have hmap : ∀ d : OD A, OD.get (d.map (fun p => if p.1 = k then (k, v) else p)) k' =
      if k' = k then (if d.any (fun p => decide (p.1 = k)) then some v else none) else OD.get d k' := by
    intro d
    induction d with
    | nil => simp [OD.get]
    | cons p d ih =>
      obtain ⟨j, w⟩ := p
      rw [List.map_cons]
      by_cases hj : j = k
      · subst hj
        by_cases hk : k' = j
        · subst hk; simp [OD.get]
        · have hk' : ¬ j = k' := fun e => hk e.symm
          simp only [if_true, OD.get, if_neg hk', ih, if_neg hk]
      · simp only [if_neg hj, OD.get]
        by_cases hk : k' = k
        · subst hk
          have hany : ((j, w) :: d).any (fun p => decide (p.1 = k')) = d.any (fun p => decide (p.1 = k')) := by
            simp [hj]
          rw [hany, if_neg hj, ih, if_pos rfl, if_pos rfl]
        · by_cases hjk : j = k'
          · simp [hjk, hk]
          · simp only [if_neg hjk, ih, if_neg hk]
  unfold OD.update
  split
  · rename_i h
    rw [hmap, h]; simp
  · rename_i h
    rw [OD.get_append]
    by_cases hk : k' = k
    · subst hk
      have : OD.get d k' = none := by
        cases hg : OD.get d k' with
        | none => rfl
        | some w =>
          have := OD.mem_of_get hg
          exact absurd (List.any_eq_true.2 ⟨_, this, by simp⟩) h
      simp [this, OD.get]
    · simp only [OD.get, if_neg hk]
      rw [if_neg (fun e => hk e.symm)]
      simp

omit [FloatOps F] in
theorem keys_update {A : Type} (d : OD A) (k : Str) (v : A) :
    OD.keys (OD.update d k v) = if k ∈ OD.keys d then OD.keys d else OD.keys d ++ [k] := by
  unfold OD.update
  have hm : d.any (fun p => decide (p.1 = k)) = true ↔ k ∈ OD.keys d := by
    simp [OD.keys, List.any_eq_true]
  by_cases h : k ∈ OD.keys d
  · rw [if_pos (hm.2 h), if_pos h]
    unfold OD.keys
    rw [List.map_map]
    apply List.map_congr_left
    intro p _
    simp only [Function.comp]
    split
    · rename_i e; exact e.symm
    · rfl
  · rw [if_neg (fun e => h (hm.1 e)), if_neg h, OD.keys_append]
    rfl

omit [FloatOps F] in
theorem Binned.add {bins : OD (Bin F)} {hist : List (Entry F)} (h : Binned bins hist) (e : Entry F) :
    Binned (OD.update bins e.key ⟨e.ctx, e.out⟩) (hist ++ [e]) where
  keys := by
    rw [keys_update, h.keys, List.map_append]
    simp [firstKeys_append]
  get k := by
    rw [get_update, lastOf_append, h.get]
    by_cases hk : k = e.key
    · subst hk; simp
    · rw [if_neg hk, if_neg (fun x => hk x.symm)]

omit [FloatOps F] in
theorem od_eq_keys {A : Type} (d : OD A) (h : OD.WF d) :
    d.map (·.2) = (OD.keys d).filterMap (fun k => OD.get d k) := by
  induction d with
  | nil => rfl
  | cons p d ih =>
    obtain ⟨k, v⟩ := p
    have hnd : k ∉ OD.keys d ∧ OD.WF d := by simpa [OD.WF, OD.keys] using h
    have e : OD.keys ((k, v) :: d) = k :: OD.keys d := rfl
    rw [e, List.map_cons, List.filterMap_cons]
    simp only [OD.get, if_true]
    rw [ih hnd.2]
    congr 1
    apply List.filterMap_congr
    intro j hj
    rw [if_neg (by rintro rfl; exact hnd.1 hj)]

omit [FloatOps F] in
theorem Binned.rows {bins : OD (Bin F)} {hist : List (Entry F)} (h : Binned bins hist) :
    bins.map (fun b => b.2.row) = groupRows hist := by
  have hw : OD.WF bins := by unfold OD.WF; rw [h.keys]; exact firstKeys_nodup _
  have h1 := od_eq_keys bins hw
  have h2 : bins.map (fun b => b.2.row) = (bins.map (·.2)).map (·.row) := by simp
  rw [h2, h1, h.keys, List.map_filterMap]
  unfold groupRows
  congr 1
  funext k
  rw [h.get]
  cases lastOf k hist <;> rfl

theorem runs_groupRow {all : Bool} {cols : List Col} {where_ : Option Comma} {gb : Comma} {g : Nat}
    {bins bins' : OD (Bin F)} {hist : List (Entry F)} (hb : Binned bins hist) {row : V F} {st st' : St F S} :
    Runs H (groupRowP H all cols where_ gb g bins row) st bins' st' ↔
      ∃ new, GroupStep H all cols where_ gb g hist row st new st' ∧
        bins' = new.foldl (fun b e => OD.update b e.key ⟨e.ctx, e.out⟩) bins := by
  unfold groupRowP
  rw [runs_pb, copy_push]
  constructor
  · intro h
    obtain ⟨cell, s1, h1, h2⟩ := runs_bind.1 h
    rw [runs_pb, runs_pb] at h2
    obtain ⟨b, s2, h3, h4⟩ := runs_bind.1 h2
    cases b with
    | false =>
      simp only [if_true] at h4
      obtain ⟨rfl, rfl⟩ := runs_pure.1 h4
      exact ⟨[], ⟨none, _, ⟨cell, s1, false, _, h1, h3, by simp⟩, rfl, rfl⟩, rfl⟩
    | true =>
      simp only [Bool.true_eq_false, if_false] at h4
      obtain ⟨v, s3, h5, h6⟩ := runs_bind.1 h4
      obtain ⟨k, s4, h7, h8⟩ := runs_bind.1 h6
      obtain ⟨c, s5, h9, h10⟩ := runs_bind.1 h8
      rw [runs_pb] at h10
      obtain ⟨out, s6, h11, h12⟩ := runs_bind.1 h10
      obtain ⟨rfl, rfl⟩ := runs_pure.1 h12
      refine ⟨[⟨k, c, out⟩], ⟨some (k, cell), s4, ⟨cell, s1, true, s2, h1, h3, ?_⟩, c, s5, out, ?_, h11, rfl⟩, rfl⟩
      · simp only [if_true]
        exact ⟨v, s3, k, h5, h7, rfl⟩
      · unfold binCtxP at h9
        rw [hb.get] at h9
        cases hl : lastOf k hist with
        | none =>
          simp only [hl, Option.map_none] at h9
          exact runs_prim.1 h9
        | some e =>
          simp only [hl, Option.map_some] at h9
          exact runs_pure.1 h9
  · rintro ⟨new, ⟨res, s4, ⟨cell, s1, b, s2, h1, h3, h4⟩, h5⟩, rfl⟩
    refine runs_bind.2 ⟨cell, s1, h1, ?_⟩
    rw [runs_pb, runs_pb]
    refine runs_bind.2 ⟨b, s2, h3, ?_⟩
    cases b with
    | false =>
      simp only [Bool.false_eq_true, if_false] at h4
      obtain ⟨rfl, rfl⟩ := h4
      obtain ⟨rfl, rfl⟩ := h5
      simp only [if_true]
      exact runs_pure.2 ⟨rfl, rfl⟩
    | true =>
      simp only [if_true] at h4
      obtain ⟨v, s3, k, h6, h7, rfl⟩ := h4
      obtain ⟨c, s5, out, h8, h9, rfl⟩ := h5
      simp only [Bool.true_eq_false, if_false]
      refine runs_bind.2 ⟨v, s3, h6, runs_bind.2 ⟨k, s4, h7, runs_bind.2 ⟨c, s5, ?_, ?_⟩⟩⟩
      · unfold binCtxP
        rw [hb.get]
        cases hl : lastOf k hist with
        | none =>
          simp only [hl] at h8
          simp only [Option.map_none]
          exact runs_prim.2 h8
        | some e =>
          simp only [hl] at h8
          simp only [Option.map_some]
          exact runs_pure.2 h8
      · rw [runs_pb]
        exact runs_bind.2 ⟨out, _, h9, runs_pure.2 ⟨rfl, rfl⟩⟩

theorem groupStep_length {all : Bool} {cols : List Col} {where_ : Option Comma} {gb : Comma} {g : Nat}
    {hist new : List (Entry F)} {row : V F} {st st' : St F S}
    (h : GroupStep H all cols where_ gb g hist row st new st') : new = [] ∨ ∃ e, new = [e] := by
  obtain ⟨res, s1, _, h2⟩ := h
  cases res with
  | none => exact .inl h2.1
  | some r => obtain ⟨c, s2, out, _, _, h⟩ := h2; exact .inr ⟨_, h⟩

theorem runs_grouped {all : Bool} {cols : List Col} {where_ : Option Comma} {gb : Comma} {g : Nat}
    {rows : List (V F)} {bins bins' : OD (Bin F)} {hist : List (Entry F)} (hb : Binned bins hist) {st st' : St F S} :
    Runs H (foldP (groupRowP H all cols where_ gb g) bins rows) st bins' st' ↔
      ∃ out, Grouped H all cols where_ gb g hist rows st out st' ∧ Binned bins' out ∧
        bins' = (out.drop hist.length).foldl (fun b e => OD.update b e.key ⟨e.ctx, e.out⟩) bins := by
  induction rows generalizing bins hist st with
  | nil =>
    simp only [foldP, runs_pure]
    constructor
    · rintro ⟨rfl, rfl⟩
      exact ⟨hist, .nil _ _, hb, by simp⟩
    · rintro ⟨out, h, h2, h3⟩
      cases h
      simp at h3
      exact ⟨h3, rfl⟩
  | cons row rows ih =>
    simp only [foldP, runs_bind]
    have step : ∀ {new : List (Entry F)} {s1 : St F S}, GroupStep H all cols where_ gb g hist row st new s1 →
        Binned (new.foldl (fun b e => OD.update b e.key ⟨e.ctx, e.out⟩) bins) (hist ++ new) := by
      intro new s1 h
      rcases groupStep_length h with rfl | ⟨e, rfl⟩
      · simpa using hb
      · exact hb.add e
    have pre : ∀ {hist rows st out st'}, Grouped H all cols where_ gb g hist rows st out st' → hist <+: out := by
      intro hist rows st out st' h
      induction h with
      | nil => exact List.prefix_refl _
      | cons _ _ ih => exact (List.prefix_append _ _).trans ih
    have drop : ∀ {new out : List (Entry F)}, hist ++ new <+: out →
        (out.drop hist.length).foldl (fun b e => OD.update b e.key ⟨e.ctx, e.out⟩) bins =
        (out.drop (hist ++ new).length).foldl (fun b e => OD.update b e.key ⟨e.ctx, e.out⟩)
          (new.foldl (fun b e => OD.update b e.key ⟨e.ctx, e.out⟩) bins) := by
      rintro new out ⟨t, rfl⟩
      rw [List.drop_left, List.append_assoc, List.drop_left, List.foldl_append]
    constructor
    · rintro ⟨b1, s1, h1, h2⟩
      obtain ⟨new, h3, rfl⟩ := (runs_groupRow hb).1 h1
      obtain ⟨out, h4, h5, h6⟩ := (ih (step h3)).1 h2
      exact ⟨out, .cons h3 h4, h5, by rw [drop (pre h4)]; exact h6⟩
    · rintro ⟨out, h, h5, h6⟩
      cases h with
      | cons h3 h4 =>
        refine ⟨_, _, (runs_groupRow hb).2 ⟨_, h3, rfl⟩, (ih (step h3)).2 ⟨out, h4, h5, ?_⟩⟩
        rw [← drop (pre h4)]
        exact h6

/-- **C30** The rows of `SELECT .. FROM .. WHERE .. GROUP BY k`: each source row passing WHERE
makes one entry, in one group; the result has one row for each distinct key (string form) in
order of first appearance, and it is the row computed for the last row of the group. -/
theorem C30_groups {ex all : Bool} {cols : List Col} {from_ : Plugin} {where_ : Option Comma}
    {gb : Comma} {s : Nat} {st st' : St F S} {out : List (V F)} :
    Runs H (call (.select (.mk ex all cols from_ where_ (some gb) none none) s)) st out st' ↔
      ∃ rows s1 hist, Runs H (call (.plugin from_ s)) st rows s1 ∧
        Grouped H all cols where_ gb s1.scopes.length [] rows (s1.push s []) hist st' ∧
        out = groupRows hist := by
  have hb : Binned ([] : OD (Bin F)) [] := ⟨rfl, fun _ => rfl⟩
  rw [runs_select_group]
  constructor
  · rintro ⟨rows, s1, bins, h1, h2, rfl⟩
    obtain ⟨hist, h3, h4, _⟩ := (runs_grouped hb).1 h2
    exact ⟨rows, s1, hist, h1, h3, h4.rows⟩
  · rintro ⟨rows, s1, hist, h1, h2, rfl⟩
    have hbin : ∀ {hist0 rows st out st'} {bins : OD (Bin F)}, Binned bins hist0 →
        Grouped H all cols where_ gb s1.scopes.length hist0 rows st out st' →
        ∃ b, Runs H (foldP (groupRowP H all cols where_ gb s1.scopes.length) bins rows) st b st' ∧ Binned b out := by
      intro hist0 rows st out st' bins hb h
      induction h generalizing bins with
      | nil hist st => exact ⟨bins, runs_pure.2 ⟨rfl, rfl⟩, hb⟩
      | @cons hist new out row rows st s1 s2 h3 h4 ih =>
        have hb' : Binned (new.foldl (fun b e => OD.update b e.key ⟨e.ctx, e.out⟩) bins) (hist ++ new) := by
          rcases groupStep_length h3 with rfl | ⟨e, rfl⟩
          · simpa using hb
          · exact hb.add e
        obtain ⟨b, h5, h6⟩ := ih hb'
        refine ⟨b, ?_, h6⟩
        simp only [foldP]
        exact runs_bind.2 ⟨_, _, (runs_groupRow hb).2 ⟨_, h3, rfl⟩, h5⟩
    obtain ⟨bins, h3, h4⟩ := hbin hb h2
    exact ⟨rows, s1, bins, h1, h3, h4.rows.symm⟩

/-! ## Consequences stated without the list functions -/

/-- Each source row makes at most one entry, so each contributes to at most one group. -/
theorem C30_one_group {all : Bool} {cols : List Col} {where_ : Option Comma} {gb : Comma} {g : Nat}
    {hist new : List (Entry F)} {row : V F} {st st' : St F S}
    (h : GroupStep H all cols where_ gb g hist row st new st') : new.length ≤ 1 := by
  rcases groupStep_length h with rfl | ⟨e, rfl⟩ <;> simp

omit [FloatOps F] in
/-- **C30** One row per distinct key. -/
theorem C30_count (hist : List (Entry F)) :
    (groupRows hist).length = (firstKeys (hist.map (·.key))).length := by
  unfold groupRows
  have key : ∀ l : List Str, (∀ k ∈ l, (lastOf k hist).isSome) →
      (l.filterMap (fun k => (lastOf k hist).map (·.out))).length = l.length := by
    intro l hl
    induction l with
    | nil => rfl
    | cons k l ih =>
      obtain ⟨e, he⟩ := Option.isSome_iff_exists.1 (hl k (by simp))
      rw [List.filterMap_cons]
      simp [he, ih (fun k hk => hl k (by simp [hk]))]
  apply key
  intro k hk
  obtain ⟨e, he, rfl⟩ := List.mem_map.1 (mem_firstKeys.1 hk)
  unfold lastOf
  rw [List.find?_isSome]
  exact ⟨e, by simpa using he, by simp⟩

omit [FloatOps F] in
/-- **C30** The row at each place is that of the last entry with the key at that place: there is
an entry with this key, and none after it. -/
theorem C30_last {hist : List (Entry F)} {k : Str} {e : Entry F} (h : lastOf k hist = some e) :
    ∃ pre post, hist = pre ++ e :: post ∧ e.key = k ∧ ∀ x ∈ post, x.key ≠ k := by
  unfold lastOf at h
  obtain ⟨h1, as, bs, h2, h3⟩ := List.find?_eq_some_iff_append.1 h
  refine ⟨bs.reverse, as.reverse, ?_, by simpa using h1, ?_⟩
  · have := congrArg List.reverse h2
    simpa using this
  · intro x hx
    have := h3 x (by simpa using hx)
    simpa using this

/-! ## Contexts -/

theorem keyed_grows {all : Bool} {cols : List Col} {where_ : Option Comma} {gb : Comma} {g : Nat} {row : V F}
    {st st' : St F S} {res : Option (Str × Nat)} (h : Keyed H all cols where_ gb g row st res st') :
    Grows st st' := by
  obtain ⟨cell, s1, b, s2, h1, h2, h3⟩ := h
  have g0 : Grows st (st.push g []) := by
    have := (Prim.copy g : Prim F S).grows st
    rwa [copy_push] at this
  have ga : ∀ (x : St F S) (s : Nat) (v : V F), Grows x (x.appendVar s v) := fun x s v => (Prim.append s v : Prim F S).grows x
  have g2 := ((((g0.trans h1.grows).trans (ga _ _ _)).trans (ga _ _ _)).trans h2.grows)
  cases b with
  | false =>
    simp only [Bool.false_eq_true, if_false] at h3
    rw [h3.2]; exact g2
  | true =>
    simp only [if_true] at h3
    obtain ⟨v, s3, k, h4, h5, _⟩ := h3
    exact (g2.trans h4.grows).trans h5.grows

/-- **C30** Aggregates of a group share one context and those of different groups do not: two
entries have the same aggregator context exactly if they have the same key, and all these
contexts are new. -/
theorem C30_contexts {all : Bool} {cols : List Col} {where_ : Option Comma} {gb : Comma} {g : Nat}
    {rows : List (V F)} {hist : List (Entry F)} {st st' : St F S}
    (h : Grouped H all cols where_ gb g [] rows st hist st') :
    (∀ e ∈ hist, ∀ e' ∈ hist, e.ctx = e'.ctx ↔ e.key = e'.key) ∧
    (∀ e ∈ hist, st.ctxs.length ≤ e.ctx ∧ e.ctx < st'.ctxs.length) := by
  have main : ∀ {hist0 rows s0 hist st'}, Grouped H all cols where_ gb g hist0 rows s0 hist st' →
      st.ctxs.length ≤ s0.ctxs.length →
      (∀ e ∈ hist0, ∀ e' ∈ hist0, e.ctx = e'.ctx ↔ e.key = e'.key) →
      (∀ e ∈ hist0, st.ctxs.length ≤ e.ctx ∧ e.ctx < s0.ctxs.length) →
      (∀ e ∈ hist, ∀ e' ∈ hist, e.ctx = e'.ctx ↔ e.key = e'.key) ∧
      (∀ e ∈ hist, st.ctxs.length ≤ e.ctx ∧ e.ctx < st'.ctxs.length) := by
    intro hist0 rows s0 hist st' h
    induction h with
    | nil hist s => exact fun _ h1 h2 => ⟨h1, h2⟩
    | @cons hist0 new out row rows s0 s1 s2 h1 h2 ih =>
      intro hlen hinj hrng
      obtain ⟨res, s3, hk, hr⟩ := h1
      have g1 := (keyed_grows hk).ctxs
      cases res with
      | none =>
        obtain ⟨rfl, rfl⟩ := hr
        simp only [List.append_nil] at ih
        exact ih (Nat.le_trans hlen g1) hinj (fun e he => ⟨(hrng e he).1, Nat.lt_of_lt_of_le (hrng e he).2 g1⟩)
      | some kc =>
        obtain ⟨k, cell⟩ := kc
        obtain ⟨c, s4, o, hc, hm, rfl⟩ := hr
        have g2 := hm.grows.ctxs
        simp only [St.setAg] at g2
        have hfacts : s3.ctxs.length ≤ s4.ctxs.length ∧ st.ctxs.length ≤ c ∧ c < s4.ctxs.length ∧
            ∀ e ∈ hist0, (e.ctx = c ↔ e.key = k) := by
          cases hl : lastOf k hist0 with
          | none =>
            simp only [hl] at hc
            obtain ⟨rfl, rfl⟩ := hc
            refine ⟨by simp, Nat.le_trans hlen g1, by simp, fun e he => ⟨fun hce => ?_, fun hke => ?_⟩⟩
            · have := (hrng e he).2
              omega
            · exfalso
              unfold lastOf at hl
              have := List.find?_eq_none.1 hl e (by simpa using he)
              simp [hke] at this
          | some e0 =>
            simp only [hl] at hc
            obtain ⟨rfl, rfl⟩ := hc
            obtain ⟨pre, post, hh, hk0, _⟩ := C30_last hl
            have he0 : e0 ∈ hist0 := by rw [hh]; simp
            refine ⟨Nat.le_refl _, (hrng e0 he0).1, Nat.lt_of_lt_of_le (hrng e0 he0).2 g1, fun e he => ?_⟩
            rw [← hk0]
            exact hinj e he e0 he0
        obtain ⟨f1, f2, f3, f4⟩ := hfacts
        refine ih (Nat.le_trans hlen (Nat.le_trans g1 (Nat.le_trans f1 g2))) ?_ ?_
        · intro e he e' he'
          simp only [List.mem_append, List.mem_singleton] at he he'
          rcases he with he | rfl <;> rcases he' with he' | rfl
          · exact hinj e he e' he'
          · exact f4 e he
          · have := f4 e' he'
            exact ⟨fun h => (this.1 h.symm).symm, fun h => (this.2 h.symm).symm⟩
          · simp
        · intro e he
          simp only [List.mem_append, List.mem_singleton] at he
          rcases he with he | rfl
          · have := hrng e he
            exact ⟨this.1, by omega⟩
          · exact ⟨f2, Nat.lt_of_lt_of_le f3 g2⟩
  exact main h (Nat.le_refl _) (by simp) (by simp)

/-! ## Columns of grouped rows -/

/-- **C27** The columns of the rows of a GROUP BY query are those of the column list, as for a
query without GROUP BY. -/
theorem C27_group {all : Bool} {cols : List Col} {where_ : Option Comma} {gb : Comma} {g : Nat}
    {hist new : List (Entry F)} {row : V F} {d : OD (V F)} (ha : Answers H row d) {st st' : St F S}
    (h : GroupStep H all cols where_ gb g hist row st new st') : ∀ e ∈ new,
      ∃ out, e.out = .dict out ∧
        OD.keys out = lastKeys [] (colNames all (cols.map H.colName) (OD.keys d)) := by
  obtain ⟨res, s1, hk, hr⟩ := h
  cases res with
  | none => rw [hr.1]; simp
  | some kc =>
    obtain ⟨k, cell⟩ := kc
    obtain ⟨c, s2, out, hc, hm, rfl⟩ := hr
    obtain ⟨cell', s3, b, s4, h1, h2, h3⟩ := hk
    cases b with
    | false => simp at h3
    | true =>
      simp only [if_true] at h3
      obtain ⟨v, s5, k', h4, h5, h6⟩ := h3
      simp only [Option.some.injEq, Prod.mk.injEq] at h6
      obtain ⟨rfl, rfl⟩ := h6
      obtain ⟨rfl, rfl⟩ := (runs_transform ha).1 h1
      obtain ⟨r1, hr1, hc1⟩ := h2.grows.rows _ _ (addRow_get ((st.push g []).push st.scopes.length [row]) _)
      obtain ⟨r2, hr2, hc2⟩ := h4.grows.rows _ _ hr1
      obtain ⟨r3, hr3, hc3⟩ := h5.grows.rows _ _ hr2
      have hr4 : (s2.setAg st.scopes.length c).rows[((st.push g []).push st.scopes.length [row]).rows.length]? = some r3 := by
        cases hl : lastOf k hist with
        | none =>
          simp only [hl] at hc
          rw [hc.2]; exact hr3
        | some e =>
          simp only [hl] at hc
          rw [hc.2]; exact hr3
      obtain ⟨out', rfl, hk'⟩ := matRow_keys hr4 hm
      intro e he
      simp only [List.mem_singleton] at he
      subst he
      refine ⟨out', rfl, ?_⟩
      rw [hk', hc3, hc2, hc1, names_specCols]

end

/-! ## Examples -/

/-- `SELECT b, a, count() AS n FROM src WHERE a < 10 GROUP BY b`. -/
example : gives [(bs "src", [.dict [(bs "a", .int 1#64), (bs "b", .str (bs "x"))],
    .dict [(bs "a", .int 2#64), (bs "b", .str (bs "y"))],
    .dict [(bs "a", .int 30#64), (bs "b", .str (bs "x"))],
    .dict [(bs "a", .int 4#64), (bs "b", .str (bs "x"))]])] []
    (.mk false false [.ex (.val (.name 0 "b")) "b", .ex (.val (.name 1 "a")) "a", .ex (.val (.fcall 2 "count" [])) "n"]
      (.src "src") (some (.rel (.name 3 "a") "<" (.int "10"))) (some (.val (.name 4 "b"))) none none)
    [.dict [(bs "b", .str (bs "x")), (bs "a", .int 4#64), (bs "n", .int 2#64)],
     .dict [(bs "b", .str (bs "y")), (bs "a", .int 2#64), (bs "n", .int 1#64)]] = true := by decide +kernel

/-- An aggregate that WHERE asks for is evaluated before the row has a group, so it does not
range over the group: `SELECT b, count() AS n FROM src WHERE n GROUP BY b`. -/
example : gives demoSrc [] (.mk false false [.ex (.val (.name 0 "b")) "b", .ex (.val (.fcall 2 "count" [])) "n"]
      (.src "src") (some (.val (.name 3 "n"))) (some (.val (.name 4 "b"))) none none)
    [.dict [(bs "b", .str (bs "x")), (bs "n", .int 3#64)],
     .dict [(bs "b", .str (bs "y")), (bs "n", .int 2#64)]] = true := by decide +kernel

/-- **C30 refuted** for aggregates referred to in WHERE: for the three rows `x`, `y`, `x` the
counts of the two groups are 3 and 2 instead of 2 and 1. -/
theorem C30_where_aggregate_refuted :
    (∃ st', Runs (demo demoSrc) (call (.select (.mk false false
        [.ex (.val (.name 0 "b")) "b", .ex (.val (.fcall 2 "count" [])) "n"]
        (.src "src") (some (.val (.name 3 "n"))) (some (.val (.name 4 "b"))) none none) 0)) (St.init [])
      [.dict [(bs "b", .str (bs "x")), (bs "n", .int 3#64)],
       .dict [(bs "b", .str (bs "y")), (bs "n", .int 2#64)]] st') ∧
    (∃ st', Runs (demo demoSrc) (call (.select (.mk false false
        [.ex (.val (.name 0 "b")) "b", .ex (.val (.fcall 2 "count" [])) "n"]
        (.src "src") none (some (.val (.name 4 "b"))) none none) 0)) (St.init [])
      [.dict [(bs "b", .str (bs "x")), (bs "n", .int 2#64)],
       .dict [(bs "b", .str (bs "y")), (bs "n", .int 1#64)]] st') :=
  ⟨runs_of_gives (by decide +kernel), runs_of_gives (by decide +kernel)⟩

end Vfilter.Vql
