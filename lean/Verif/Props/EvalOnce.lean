import Verif.EvalOnce
import Verif.Props.EvalGroup
/-!
# C29: columns are computed lazily and at most once per row

The ghost component `evals` of the state records each evaluation of a column expression: the
name of the column and the scope it was evaluated in.  This scope is made for the row (it is
fresh), so the entries with this scope are the evaluations for this row.
-/
set_option linter.all false

namespace Vfilter.Vql

section
variable {F S : Type}

/-- `k` is a column given by an expression, not one copied from the source row by `*`. -/
def isExprCol (r : RowCell F) (k : Str) : Bool :=
  match r.getter k with
  | some (.col _ _ _) => true
  | _ => false

/-- `k` has been asked for. -/
def isCached (r : RowCell F) (k : Str) : Bool := (OD.get r.cache k).isSome

/-- `n` is the number of evaluations of the column `k` of a row of which WHERE (or the group
key) asked for the columns in its cache; `done` says that the row was accepted. -/
def Computed (r : RowCell F) (done : Bool) (k : Str) (n : Nat) : Prop :=
  if isExprCol r k = false then n = 0
  else if isCached r k then n = 1
  else if done then n = (r.cols.map (·.1)).count k
  else n = 0

theorem computed_before {r : RowCell F} {k : Str} {m n : Nat} {b : Bool}
    (h : n = m + match r.getter k with
        | some (.col _ _ _) => if (OD.get r.cache k).isSome then 1 else 0
        | _ => 0) (hb : b = false) : ∃ d, n = m + d ∧ Computed r b k d := by
  refine ⟨_, h, ?_⟩
  subst hb
  unfold Computed isExprCol isCached
  cases hg : r.getter k with
  | none => simp
  | some g =>
    cases g with
    | const v => simp
    | col c nm ns => by_cases hc : (OD.get r.cache k).isSome <;> simp [hc]

theorem computed_after {r : RowCell F} {k : Str} {m n n' : Nat}
    (h : n = m + match r.getter k with
        | some (.col _ _ _) => if (OD.get r.cache k).isSome then 1 else 0
        | _ => 0) (h' : n' = n + missing r (r.cols.map (·.1)) k) : ∃ d, n' = m + d ∧ Computed r true k d := by
  subst h
  rw [Nat.add_assoc] at h'
  refine ⟨_, h', ?_⟩
  unfold Computed isExprCol isCached missing
  cases hg : r.getter k with
  | none => simp
  | some g =>
    cases g with
    | const v => simp
    | col c nm ns => by_cases hc : (OD.get r.cache k).isSome <;> simp [hc]

theorem Computed.le_one {r : RowCell F} {b : Bool} {k : Str} {n : Nat} (h : Computed r b k n)
    (hk : (r.cols.map (·.1)).count k ≤ 1) : n ≤ 1 := by
  unfold Computed at h
  split at h
  · omega
  · split at h
    · omega
    · split at h <;> omega

variable [FloatOps F] {H : Host F S}

/-- **C29** One source row of a query without GROUP BY.  `st.rows.length` is the lazy row built
for it, `st.scopes.length + 1` the scope of its column expressions.  A column asked for by
WHERE is computed once; the others are not computed if the row is rejected, and when the row is
accepted they are computed once for each column of that name.

The host is any whose functions keep to the values they are given (`Host.Within`), and where an
aggregate function does not store its arguments; the state is any part `J` of which is closed
and contains the scope and the source row; the source row is a dict or a row of a nested query
(`Answers`). -/
theorem C29_row_partial (hH : H.Within true) {J : Know} {st st' : St F S} (h : Fit J st) {s : Nat} (hs : J.sc s)
    {row : V F} (hr : VW J row) {d : OD (V F)} (ha : Answers H row d) (hd : QD J d)
    {all : Bool} {cols : List Col} {where_ : Option Comma} {out : List (V F)}
    (hrun : Runs H (processRowP H all cols where_ s row) st out st') :
    ∃ r b, st'.rows[st.rows.length]? = some r ∧ r.cols = specCols H all cols (st.scopes.length + 1) d ∧
      (b = false ↔ out = []) ∧ (where_ = none → r.cache = []) ∧
      ∀ k, ∃ n, st'.evals.count (k, st.scopes.length + 1) = st.evals.count (k, st.scopes.length + 1) + n ∧
        Computed r b k n := by
  obtain ⟨cell, b, s1, hv, ho⟩ := runs_processRow.1 hrun
  obtain ⟨rfl, K, J1, r, w, hc, h1, h2, h3, _, h5⟩ := verdict_sp hH h hs hr ha hd hv
  cases b with
  | false =>
    obtain ⟨rfl, rfl⟩ : out = [] ∧ st' = s1 := by simpa using ho
    exact ⟨r, false, h1, h2, by simp, h5, fun k => computed_before (h3 k) rfl⟩
  | true =>
    obtain ⟨o, hm, rfl⟩ : ∃ o, Runs H (matRowP st.rows.length) s1 o st' ∧ out = [o] := by
      simpa using ho
    obtain ⟨K', J', w', e, j, m, _, h6, h7⟩ := matRow_sp hH w h1 hm
    exact ⟨r, true, h6, h2, by simp, h5, fun k => computed_after (h3 k) (h7 k)⟩

/-- A source row whose members can be listed and read without side effects: a dict, or NULL. -/
def SrcRow (H : Host F S) (row : V F) (d : OD (V F)) : Prop := Answers H row d ∧ ∀ K, VW K row → QD K d

theorem srcRow_dict {d : OD (V F)} (hw : OD.WF d) (hk : ∀ k ∈ OD.keys d, PlainKey k) : SrcRow H (.dict d) d :=
  ⟨answers_dict hw hk, fun K h => vw_dict.1 h⟩

theorem srcRow_null : SrcRow H .null [] := ⟨answers_null, fun K _ p hp => nomatch hp⟩

/-- The row built for a source row: the lazy row, the scope of its columns, accepted or not. -/
structure Built where
  cell : Nat
  ns : Nat
  ok : Bool

/-- The number of evaluations of each column of the row, counted in `st`. -/
def OnceAt (H : Host F S) (all : Bool) (cols : List Col) (st : St F S) (row : V F) (b : Built) : Prop :=
  ∃ d r, SrcRow H row d ∧ st.rows[b.cell]? = some r ∧ r.cols = specCols H all cols b.ns d ∧
    ∀ k, Computed r b.ok k (st.evals.count (k, b.ns))

omit [FloatOps F] in
theorem evalsOld_count {st : St F S} (h : EvalsOld st) (k : Str) {i : Nat} (hi : st.scopes.length ≤ i) :
    st.evals.count (k, i) = 0 := by
  rw [List.count_eq_zero]
  intro hm
  have := h _ hm
  simp only at this
  omega

omit [FloatOps F] in
theorem same_evals {K : Know} {st st' : St F S} (h : Same none K st st') {i : Nat} (hi : i < st.scopes.length)
    (hk : ¬K.gs i) (k : Str) : st'.evals.count (k, i) = st.evals.count (k, i) := by
  obtain ⟨new, e, hn⟩ := h.evals
  rw [e, List.count_append]
  have : new.count (k, i) = 0 := by
    rw [List.count_eq_zero]
    intro hm
    rcases hn _ hm with h7 | h7 | ⟨c, h7⟩
    · exact hk h7
    · simp only at h7
      omega
    · cases h7
  rw [this, Nat.add_zero]

theorem once_loop (hH : H.Within true) {all : Bool} {cols : List Col} {where_ : Option Comma} {s : Nat}
    {rows : List (V F)} {st st' : St F S} {outs : List (List (V F))}
    (h : Each (fun row a o b => Runs H (processRowP H all cols where_ s row) a o b) rows st outs st') :
    ∀ {B : Know}, Fit B st → B.sc s → QL B rows → EvalsOld st → (∀ row ∈ rows, ∃ d, SrcRow H row d) →
    Same none B st st' ∧ ∃ items, List.Forall₂ (OnceAt H all cols st') rows items ∧
      (∀ b ∈ items, st.scopes.length ≤ b.ns) ∧ (items.map (·.ns)).Nodup ∧
      outs.flatten.length = (items.filter (·.ok)).length := by
  induction h with
  | nil st => exact fun _ _ _ _ _ => ⟨Same.refl _ _ _, [], .nil, by simp, by simp, by simp⟩
  | @cons row rows o outs st s1 s2 h1 h2 ih =>
    intro B hf hs hr he hsrc
    obtain ⟨d, hd⟩ := hsrc row List.mem_cons_self
    have hrow := hr row List.mem_cons_self
    obtain ⟨r, b, g1, g2, g3, _, g4⟩ := C29_row_partial hH hf hs hrow hd.1 (hd.2 _ hrow) h1
    obtain ⟨_, _, _, m1, _, he1, _⟩ := runs_within hH hf (within_processRowP hH all cols where_ hs hrow) h1
    obtain ⟨B', f', e', n1, n2, _, _, n3⟩ := process_base hH hf hs hrow hd.1 (hd.2 _ hrow) h1
    obtain ⟨m2, items, i1, i2, i3, i4⟩ := ih f' (e'.le.sc hs)
      (QL.mono e'.le (fun x hx => hr x (List.mem_cons_of_mem _ hx))) (he1 he)
      (fun x hx => hsrc x (List.mem_cons_of_mem _ hx))
    refine ⟨m1.trans e' m2, ⟨st.rows.length, st.scopes.length + 1, b⟩ :: items, .cons ⟨d, r, hd, ?_, g2, fun k => ?_⟩ i1,
      ?_, ?_, ?_⟩
    · rw [m2.rw _ (List.getElem?_eq_some_iff.1 g1).1 n1]
      exact g1
    · obtain ⟨n, hn, hc⟩ := g4 k
      rw [same_evals m2 (by omega) n2, hn, evalsOld_count he k (by omega), Nat.zero_add]
      exact hc
    · intro x hx
      rcases List.mem_cons.1 hx with rfl | hx
      · simp
      · have := i2 x hx
        omega
    · rw [List.map_cons, List.nodup_cons]
      refine ⟨fun hm => ?_, i3⟩
      obtain ⟨x, hx, e⟩ := List.mem_map.1 hm
      have := i2 x hx
      simp only at e
      omega
    · rw [List.flatten_cons, List.length_append, i4]
      cases b with
      | false => simp [g3.1 rfl]
      | true =>
        have : o.length = 1 := by
          obtain ⟨cell, b', s3, _, ho⟩ := runs_processRow.1 h1
          cases b' with
          | false =>
            have : o = [] := (by simpa using ho : o = [] ∧ _).1
            exact absurd (g3.2 this) (by simp)
          | true =>
            obtain ⟨x, _, rfl⟩ : ∃ x, Runs H (matRowP cell) s3 x s1 ∧ o = [x] := by simpa using ho
            rfl
        rw [this]
        simp
        omega

/-- **C29** A whole query `SELECT .. FROM .. WHERE ..`: for each source row there is one lazy row
with a scope of its own, and when the query has finished the columns have been evaluated in this
scope as `Computed` says; evaluating the later rows and everything else did not evaluate them
again.  The query starts in a state where every column evaluation recorded so far was in an
existing scope. -/
theorem C29_select_partial (hH : H.Within true) {J : Know} {st st' : St F S} (h : Fit J st) {s : Nat} (hs : J.sc s)
    (he : EvalsOld st) {ex all : Bool} {cols : List Col} {from_ : Plugin} {where_ : Option Comma} {out : List (V F)}
    (hrun : Runs H (call (.select (.mk ex all cols from_ where_ none none none) s)) st out st') :
    ∃ rows s1, Runs H (call (.plugin from_ s)) st rows s1 ∧
      ((∀ row ∈ rows, ∃ d, SrcRow H row d) → ∃ items,
        List.Forall₂ (OnceAt H all cols st') rows items ∧ (items.map (·.ns)).Nodup ∧
        out.length = (items.filter (·.ok)).length) := by
  obtain ⟨rows, s1, outs, h1, h2, rfl⟩ := runs_select.1 hrun
  refine ⟨rows, s1, h1, fun hsrc => ?_⟩
  obtain ⟨K, f, e, m, _, he1, hr⟩ := runs_within (Q := QL) hH h (p := call (.plugin from_ s)) ⟨hs, fun L r hL hr => hr⟩ h1
  obtain ⟨_, items, i1, _, i3, i4⟩ := once_loop hH h2 f (e.le.sc hs) hr (he1 he) hsrc
  exact ⟨items, i1, i3, i4⟩

/-- **C29** Each column of a row is evaluated at most once, if the names of its columns are
distinct. -/
theorem C29_at_most_once_partial {all : Bool} {cols : List Col} {st : St F S} {row : V F} {b : Built}
    (h : OnceAt H all cols st row b) (hn : ∀ d, SrcRow H row d → ((specCols H all cols b.ns d).map (·.1)).Nodup)
    (k : Str) : st.evals.count (k, b.ns) ≤ 1 := by
  obtain ⟨d, r, hd, h1, h2, h3⟩ := h
  refine (h3 k).le_one ?_
  rw [h2]
  exact List.nodup_iff_count.1 (hn d hd) k

/-! ## GROUP BY -/

/-- A source row of a GROUP BY up to its group key. -/
theorem keyed_sp (hH : H.Within true) {J0 : Know} {st st' : St F S} (h : Fit J0 st) {g : Nat} (hg : J0.sc g)
    {row : V F} (hr : VW J0 row) {d : OD (V F)} (ha : Answers H row d) (hd : QD J0 d) {all : Bool} {cols : List Col}
    {w : Option Comma} {gb : Comma} {res : Option (Str × Nat)} (hk : Keyed H all cols w gb g row st res st') :
    (∀ k cell, res = some (k, cell) → cell = st.rows.length) ∧
    ∃ K J r, Wd true (some (st.rows.length, st.scopes.length + 1)) K J st' ∧ K.rw st.rows.length ∧
      J.pa st.scopes.length ∧ J0.Le J ∧
      st'.rows[st.rows.length]? = some r ∧ r.cols = specCols H all cols (st.scopes.length + 1) d ∧
      ∀ k, st'.evals.count (k, st.scopes.length + 1) = st.evals.count (k, st.scopes.length + 1) +
        match r.getter k with
        | some (.col _ _ _) => if (OD.get r.cache k).isSome then 1 else 0
        | _ => 0 := by
  obtain ⟨cell, s1, b, s2, ht, hp, hb⟩ := hk
  obtain ⟨rfl, rfl⟩ := (runs_transform ha).1 ht
  refine ⟨?_, ?_⟩
  · intro k cell e
    cases b with
    | false =>
      simp only [Bool.false_eq_true, if_false] at hb
      rw [hb.1] at e
      cases e
    | true =>
      simp only [if_true] at hb
      obtain ⟨_, _, _, _, _, e'⟩ := hb
      rw [e'] at e
      cases e
      rfl
  simp only [push_len, push_rows] at *
  have hlt := h.closed.sc.lt hg
  have hvars := h.closed.scp hg
  have f1 := h.pushPa (h.closed.sp g hg) ([] : List (V F))
  have hl1 := J0.le_addPa st.scopes.length
  have f2 := f1.push (s := st.scopes.length) (vs := [row]) (Or.inr rfl) (by
    rw [push_scp]
    intro v hm
    simp only [List.append_nil, List.mem_append, List.mem_singleton] at hm
    rcases hm with hm | rfl
    · exact VW.mono hl1 (hvars v hm)
    · exact VW.mono hl1 hr)
  have hl2 := (J0.addPa st.scopes.length).le_addScp (st.scopes.length + 1)
  simp only [push_len] at f2
  have hgs : ¬((J0.addPa st.scopes.length).addScp (st.scopes.length + 1)).gs (st.scopes.length + 1) := by
    intro hx
    have := h.closed.sc.lt (h.closed.gs _ hx)
    omega
  have w0 := f2.sp (ns := st.scopes.length + 1) (Or.inr rfl) hgs
    (specCols_sp (H := H) (hd.mono (hl1.trans hl2)) all cols (st.scopes.length + 1)) (E := fun i => i = st.scopes.length)
    (fun i e => Or.inl (Or.inr e)) (by
      rintro i rfl
      rw [push_scp_lt _ _ _ (by simp), push_scp]
      intro v hm
      exact VW.mono (hl1.trans hl2) (hvars v (by simpa using hm)))
  have seen := seen_addRow ((st.push g []).push st.scopes.length [row])
    (specCols H all cols (st.scopes.length + 1) d) (st.scopes.length + 1)
  simp only [push_rows] at w0 seen
  have hJ : ¬((J0.addPa st.scopes.length).addScp (st.scopes.length + 1)).sc st.scopes.length := by
    rintro (hx | hx)
    · have := h.closed.sc.lt hx
      omega
    · omega
  have hle := (hl1.trans hl2).trans
    (((J0.addPa st.scopes.length).addScp (st.scopes.length + 1)).le_addSp (fun i => i = st.scopes.length) st.rows.length)
  have t1 := tr_append (gp := true) w0 (s := st.scopes.length) (v := row) (Or.inr rfl) hJ (hr.mono hle)
  have t2 := tr_append (gp := true) t1.wd (s := st.scopes.length) (v := .obj (.row st.rows.length)) (Or.inr rfl) hJ
    (vw_obj.2 (Or.inr rfl))
  have hrow0 : (((st.push g []).push st.scopes.length [row]).addRow (specCols H all cols (st.scopes.length + 1) d)).rows[st.rows.length]? =
      some ⟨specCols H all cols (st.scopes.length + 1) d, []⟩ := addRow_get ((st.push g []).push st.scopes.length [row]) _
  obtain ⟨K3, J3, t3, _⟩ := runs_sp hH t2.wd (within_passP hH w (Or.inr rfl) (hle.sc hg)) hp
  have hrow2 := hrow0
  have fin : ∀ {Ka Ja K J : Know} {s3 : St F S}, Tr true true (some (st.rows.length, st.scopes.length + 1)) Ka Ja
      (((st.push g []).push st.scopes.length [row]).addRow (specCols H all cols (st.scopes.length + 1) d)) K J s3 →
      Ka.rw st.rows.length → Ja.pa st.scopes.length → J0.Le Ja →
      Grows ((((st.push g []).push st.scopes.length [row]).addRow
        (specCols H all cols (st.scopes.length + 1) d)).appendVar st.scopes.length row |>.appendVar st.scopes.length (.obj (.row st.rows.length))) s3 →
      ∃ K J r, Wd true (some (st.rows.length, st.scopes.length + 1)) K J s3 ∧ K.rw st.rows.length ∧
      J.pa st.scopes.length ∧ J0.Le J ∧
      s3.rows[st.rows.length]? = some r ∧ r.cols = specCols H all cols (st.scopes.length + 1) d ∧
      ∀ k, s3.evals.count (k, st.scopes.length + 1) = st.evals.count (k, st.scopes.length + 1) +
        match r.getter k with
        | some (.col _ _ _) => if (OD.get r.cache k).isSome then 1 else 0
        | _ => 0 := by
    intro Ka Ja K J s3 tt x1 x2 x3 hg3
    obtain ⟨r, h5, h6⟩ := tt.kept _ _ _ rfl seen
    obtain ⟨r2, h7, h8⟩ := hg3.rows st.rows.length _ hrow0
    rw [h5] at h7
    cases h7
    exact ⟨K, J, r, tt.wd, tt.ext.le.rw x1, tt.extJ.le.pa x2, x3.trans tt.extJ.le, h5, h8, h6⟩
  have t12 := t1.trans t2
  cases b with
  | false =>
    simp only [Bool.false_eq_true, if_false] at hb
    obtain ⟨_, rfl⟩ := hb
    exact fin (t12.trans t3) (Or.inr rfl) (Or.inl (Or.inr rfl)) (hl1.trans hl2) hp.grows
  | true =>
    simp only [if_true] at hb
    obtain ⟨v, s3, k, h1, h2, _⟩ := hb
    have hK3 : K3.sc st.scopes.length := t3.ext.le.sc (Or.inr rfl)
    obtain ⟨K4, J4, t4, hv⟩ := runs_sp (Q := VW) hH t3.wd (p := call (.comma gb st.scopes.length)) ⟨hK3, fun L r hL hr => hr⟩ h1
    obtain ⟨K5, J5, t5, _⟩ := runs_sp (Q := QT) hH t4.wd (hH.toStr K4 v _ (t4.ext.le.sc hK3) hv) h2
    exact fin (((t12.trans t3).trans t4).trans t5) (Or.inr rfl) (Or.inl (Or.inr rfl)) (hl1.trans hl2) ((hp.grows.trans h1.grows).trans h2.grows)

/-- **C29** One source row of a query with GROUP BY: a column asked for by WHERE or by the group key is
computed once; the others are computed when the row is accepted, once for each column of that
name, and not computed if the row is rejected.  `new` is the entry the row makes. -/
theorem C29_group_partial (hH : H.Within true) {J : Know} {st st' : St F S} (h : Fit J st) {g : Nat} (hg : J.sc g)
    {row : V F} (hr : VW J row) {d : OD (V F)} (hsrc : SrcRow H row d)
    {all : Bool} {cols : List Col} {where_ : Option Comma} {gb : Comma} {hist new : List (Entry F)}
    (hc : ∀ e ∈ hist, J.cx e.ctx) (hstep : GroupStep H all cols where_ gb g hist row st new st') :
    ∃ r b, st'.rows[st.rows.length]? = some r ∧ r.cols = specCols H all cols (st.scopes.length + 1) d ∧
      (b = false ↔ new = []) ∧
      ∀ k, ∃ n, st'.evals.count (k, st.scopes.length + 1) = st.evals.count (k, st.scopes.length + 1) + n ∧
        Computed r b k n := by
  obtain ⟨res, s1, hk, hm⟩ := hstep
  obtain ⟨hcell, K, J1, r, w, _, hpa, hle, h1, h2, h3⟩ := keyed_sp hH h hg hr hsrc.1 (hsrc.2 _ hr) hk
  cases res with
  | none =>
    obtain ⟨rfl, rfl⟩ := hm
    exact ⟨r, false, h1, h2, by simp, fun k => computed_before (h3 k) rfl⟩
  | some kc =>
    obtain ⟨k, cell⟩ := kc
    obtain rfl := hcell k cell rfl
    obtain ⟨c, s2, out, h4, h5, rfl⟩ := hm
    have key : ∃ K2 J2, Wd true (some (st.rows.length, st.scopes.length + 1)) K2 J2 s2 ∧ J2.pa st.scopes.length ∧ J2.cx c ∧
        s2.rows = s1.rows ∧ s2.evals = s1.evals := by
      cases hl : lastOf k hist with
      | none =>
        simp only [hl] at h4
        obtain ⟨rfl, rfl⟩ := h4
        exact ⟨_, _, (tr_mkCtx_inner (gp := true) w hpa).wd, hpa, Or.inr rfl, rfl, rfl⟩
      | some e =>
        simp only [hl] at h4
        obtain ⟨rfl, rfl⟩ := h4
        refine ⟨_, _, w, hpa, hle.cx (hc e ?_), rfl, rfl⟩
        obtain ⟨pre, post, rfl, _⟩ := C30_last hl
        simp
    obtain ⟨K2, J2, w2, p2, c2, e1, e2⟩ := key
    have w3 := (tr_setAg (gp := true) w2 (w2.le.pa p2) (fun _ => c2) (w2.le.cx c2)).wd
    have hr2 : (s2.setAg st.scopes.length c).rows[st.rows.length]? = some r := by
      show s2.rows[st.rows.length]? = some r
      rw [e1]
      exact h1
    obtain ⟨_, _, _, _, _, _, _, h6, h7⟩ := matRow_sp hH w3 hr2 h5
    refine ⟨r, true, h6, h2, by simp, fun k => computed_after (h3 k) ?_⟩
    rw [h7 k]
    show s2.evals.count _ + _ = _
    rw [e2]

end
end Vfilter.Vql
