import Verif.EvalReach
import Verif.EvalSelect
/-!
# One row of a query

What `EvalReach` says about the row built for one source row: before WHERE is evaluated nothing
but the row itself refers to its lazy columns, so while WHERE (and the group key) are evaluated
every column is computed at most once, and materializing the finished row computes the
remaining ones.
-/
set_option linter.all false

namespace Vfilter.Vql

section
variable {F S : Type}

/-- A closed part of the heap: everything stored in it is in it. -/
structure Fit (K : Know) (st : St F S) : Prop where
  closed : Closed K st
  rg : ∀ c, K.rw c → K.rg c

theorem Fit.wd {K : Know} {st : St F S} (h : Fit K st) : Wd false none K Know.none st :=
  ⟨Or.inr rfl, h.closed, closed_none st, K.none_le, fun c hc => Or.inl (h.rg c hc), fun c hc => hc.elim,
    fun c ns e => by cases e⟩

theorem Wd.fit {K J : Know} {st : St F S} (h : Wd false none K J st) : Fit K st :=
  ⟨h.closed, fun c hc => (h.rg c hc).resolve_right (by rintro ⟨ns, e⟩; cases e)⟩

/-- Also scope `i` is known, except as the scope of a column. -/
def Know.addScp (K : Know) (i : Nat) : Know :=
  { K with sc := fun j => K.sc j ∨ j = i, pa := fun j => K.pa j ∨ j = i }
/-- Also the aggregator context of scope `i` may be looked up. -/
def Know.addPa (K : Know) (i : Nat) : Know := { K with pa := fun j => K.pa j ∨ j = i }

theorem Know.le_addScp (K : Know) (i : Nat) : K.Le (K.addScp i) := ⟨Or.inl, id, Or.inl, id, id, id, id, id⟩
theorem Know.le_addPa (K : Know) (i : Nat) : K.Le (K.addPa i) := ⟨id, id, Or.inl, id, id, id, id, id⟩

theorem Fit.pushPa {K : Know} {st : St F S} (h : Fit K st) {s : Nat} (hs : K.pa s) (vs : List (V F)) :
    Fit (K.addPa st.scopes.length) (st.push s vs) := by
  have hl := K.le_addPa st.scopes.length
  have c := h.closed
  refine ⟨⟨(c.sc.mono (fun x hx => hx.mono hl)).grow, c.gs, c.pa.push (fun x hx => hx.mono hl) ?_, fun i hi => Or.inl (c.sp i hi),
    c.lz.mono (fun x hx => hx.mono hl), c.rw.mono (fun x hx => hx.mono hl), c.rg.mono (fun x hx => hx.mono hl),
    c.si.mono (fun x hx => hx.mono hl), c.cx.mono (fun x hx => hx.mono hl)⟩, h.rg⟩
  exact ⟨fun p hp => by cases hp; exact Or.inl hs, fun c hc => by cases hc⟩

theorem Fit.push {K : Know} {st : St F S} (h : Fit K st) {s : Nat} (hs : K.pa s) {vs : List (V F)}
    (hv : ∀ v ∈ (st.scp s).vars ++ vs, VW K v) : Fit (K.addScp st.scopes.length) (st.push s vs) := by
  have hl := K.le_addScp st.scopes.length
  have c := h.closed
  refine ⟨⟨c.sc.push (fun x hx => hx.mono hl) (fun v hm => (hv v hm).mono hl), fun i hi => Or.inl (c.gs i hi),
    c.pa.push (fun x hx => hx.mono hl) ?_, fun i hi => hi.imp (c.sp i) id,
    c.lz.mono (fun x hx => hx.mono hl), c.rw.mono (fun x hx => hx.mono hl), c.rg.mono (fun x hx => hx.mono hl),
    c.si.mono (fun x hx => hx.mono hl), c.cx.mono (fun x hx => hx.mono hl)⟩, h.rg⟩
  exact ⟨fun p hp => by cases hp; exact Or.inl hs, fun c hc => by cases hc⟩

/-- Also the scopes in `E` and row `c`, but not its getters. -/
def Know.addSp (K : Know) (E : Nat → Prop) (c : Nat) : Know :=
  { K with sc := fun j => K.sc j ∨ E j, rw := fun j => K.rw j ∨ j = c }

theorem Know.le_addSp (K : Know) (E : Nat → Prop) (c : Nat) : K.Le (K.addSp E c) := ⟨Or.inl, id, id, id, Or.inl, id, id, id⟩

/-- A new row whose columns are evaluated in a scope that no other row uses. -/
theorem Fit.sp {J : Know} {st : St F S} (h : Fit J st) {ns : Nat} (hs : J.sc ns) (hg : ¬J.gs ns)
    {cs : List (Str × Getter F)} (hc : ∀ p ∈ cs, SpCol J ns p) {E : Nat → Prop} (hE : ∀ i, E i → J.pa i)
    (hv : ∀ i, E i → ∀ v ∈ (st.scp i).vars, VW J v) :
    Wd true (some (st.rows.length, ns)) (J.addSp E st.rows.length) J (st.addRow cs) := by
  have hl := J.le_addSp E st.rows.length
  have c := h.closed
  have hrw : ¬J.rw st.rows.length := fun hx => by have := c.rw.lt hx; omega
  have hrg : ¬J.rg st.rows.length := fun hx => by have := c.rg.lt hx; omega
  refine ⟨Or.inl rfl, ⟨?_, fun i hi => Or.inl (c.gs i hi), c.pa.mono (fun x hx => hx.mono hl), ?_,
    c.lz.mono (fun x hx => hx.mono hl), c.rw.push (fun x hx => hx.mono hl) (fun p hp => by cases hp),
    (c.rg.mono (fun x hx => hx.mono hl)).grow,
    c.si.mono (fun x hx => hx.mono hl), c.cx.mono (fun x hx => hx.mono hl)⟩,
    ⟨c.sc, c.gs, c.pa, c.sp, c.lz, c.rw.grow, c.rg.grow, c.si, c.cx⟩, hl, ?_, h.rg, ?_⟩
  · rintro i (hi | hi)
    · obtain ⟨x, hx, hw⟩ := c.sc i hi
      exact ⟨x, hx, hw.mono hl⟩
    · obtain ⟨x, hx, _⟩ := c.pa i (hE i hi)
      refine ⟨x, hx, ?_⟩
      have := hv i hi
      simp only [St.scp, hx, Option.getD_some] at this
      exact fun v hm => (this v hm).mono hl
  · rintro i (hi | hi)
    · exact c.sp i hi
    · exact hE i hi
  · rintro i (hi | hi)
    · exact Or.inl (h.rg i hi)
    · exact Or.inr ⟨ns, by rw [hi]⟩
  · intro i n e
    cases e
    exact ⟨hs, hg, hrw, hrg, _, addRow_get st cs, hc⟩

/-- How often the columns of a new row have been evaluated. -/
theorem seen_addRow (st : St F S) (cs : List (Str × Getter F)) (ns : Nat) :
    Seen (fun k => st.evals.count (k, ns)) st.rows.length ns (st.addRow cs) := by
  refine ⟨_, addRow_get st cs, fun k => ?_⟩
  have : (OD.get ([] : OD (V F)) k).isSome = false := rfl
  simp only [this]
  split <;> rfl

variable [FloatOps F] {H : Host F S}

theorem runs_within {gp : Bool} (hH : H.Within gp) {K : Know} {st st' : St F S} (h : Fit K st) {α : Type}
    {Q : Know → α → Prop} {p : Prog F S α} {a : α} (hp : p.Within gp Q K []) (hr : Runs H p st a st') :
    ∃ K', Fit K' st' ∧ KExt st K K' ∧ Same none K st st' ∧ (gp = true → PlainCtx st → PlainCtx st') ∧
      (EvalsOld st → EvalsOld st') ∧ Q K' a := by
  obtain ⟨n, hn⟩ := hr
  obtain ⟨K', J', t, hq⟩ := within_interp (fun h => by first | rfl | cases h) (run_within hH n) p hp h.wd (fun i hi => nomatch hi) hn
  exact ⟨K', t.wd.fit, t.ext, t.same, t.plain, t.evs, hq⟩

theorem runs_sp (hH : H.Within true) {X : Option (Nat × Nat)} {K J : Know} {st st' : St F S} (h : Wd true X K J st) {α : Type}
    {Q : Know → α → Prop} {p : Prog F S α} {a : α} (hp : p.Within true Q K []) (hr : Runs H p st a st') :
    ∃ K' J', Tr true true X K J st K' J' st' ∧ Q K' a := by
  obtain ⟨n, hn⟩ := hr
  exact within_interp (fun h => by first | rfl | cases h) (run_within_sp hH X n) p hp h (fun i hi => nomatch hi) hn

/-- How often a column is computed when the row is materialized. -/
def missing (r : RowCell F) (names : List Str) (k : Str) : Nat :=
  match r.getter k with
  | some (.col _ _ _) => if (OD.get r.cache k).isSome then 0 else names.count k
  | _ => 0

theorem matCols_sp (hH : H.Within true) {c0 ns0 : Nat} {r : RowCell F} : ∀ (names : List Str) {K J : Know} {st st' : St F S}
    {acc d : OD (V F)}, Wd true (some (c0, ns0)) K J st → st.rows[c0]? = some r →
    Runs H (foldP (matColP c0) acc names) st d st' →
    ∃ K' J', Wd true (some (c0, ns0)) K' J' st' ∧ KExt st K K' ∧ KExt st J J' ∧ Same (some (c0, ns0)) K st st' ∧
      (QD K acc → QD K r.cache → QD K' d) ∧ st'.rows[c0]? = some r ∧
      ∀ k, st'.evals.count (k, ns0) = st.evals.count (k, ns0) + missing r names k
  | [], K, J, st, st', acc, d, h, hr, hrun => by
    obtain ⟨rfl, rfl⟩ := runs_pure.1 hrun
    refine ⟨K, J, h, KExt.refl _ _, KExt.refl _ _, Same.refl _ _ _, fun h1 _ => h1, hr, fun k => ?_⟩
    unfold missing
    split <;> simp
  | m :: names, K, J, st, st', acc, d, h, hr, hrun => by
    obtain ⟨acc1, s1, h1, h2⟩ := runs_bind.1 hrun
    unfold matColP at h1
    rw [runs_pb] at h1
    simp only [Prim.step, hr] at h1
    have fin : ∀ {K1 J1 : Know}, Wd true (some (c0, ns0)) K1 J1 s1 → KExt st K K1 → KExt st J J1 → Same (some (c0, ns0)) K st s1 →
        (QD K acc → QD K r.cache → QD K1 acc1) → s1.rows[c0]? = some r →
        (∀ k, s1.evals.count (k, ns0) = st.evals.count (k, ns0) + missing r [m] k) →
        ∃ K' J', Wd true (some (c0, ns0)) K' J' st' ∧ KExt st K K' ∧ KExt st J J' ∧ Same (some (c0, ns0)) K st st' ∧
          (QD K acc → QD K r.cache → QD K' d) ∧ st'.rows[c0]? = some r ∧
          ∀ k, st'.evals.count (k, ns0) = st.evals.count (k, ns0) + missing r (m :: names) k := by
      intro K1 J1 w1 e1 j1 m1 a1 r1 n1
      obtain ⟨K2, J2, w2, e2, j2, m2, a2, r2, n2⟩ := matCols_sp hH names w1 r1 h2
      refine ⟨K2, J2, w2, e1.trans m1.len e2, j1.trans m1.len j2, m1.trans e1 m2,
        fun ha hc => a2 (a1 ha hc) (hc.mono e1.le), r2, fun k => ?_⟩
      rw [n2, n1, Nat.add_assoc]
      congr 1
      unfold missing
      split
      · split
        · rfl
        · rw [← List.count_append, List.singleton_append]
      · rfl
    cases h3 : OD.get r.cache m with
    | some v =>
      simp only [h3] at h1
      obtain ⟨rfl, rfl⟩ := runs_pure.1 h1
      refine fin h (KExt.refl _ _) (KExt.refl _ _) (Same.refl _ _ _) (fun ha hc => ha.set _ (QD.get hc h3)) hr (fun k => ?_)
      unfold missing
      split
      · split
        · rfl
        · rename_i hk
          have : k ≠ m := by
            rintro rfl
            rw [h3] at hk
            simp at hk
          simp [List.count_eq_zero, this]
      · rfl
    | none =>
      simp only [h3] at h1
      cases h4 : r.getter m with
      | none =>
        simp only [h4] at h1
        obtain ⟨rfl, rfl⟩ := runs_pure.1 h1
        refine fin h (KExt.refl _ _) (KExt.refl _ _) (Same.refl _ _ _) (fun ha _ => ha) hr (fun k => ?_)
        unfold missing
        split
        · rename_i hk
          split
          · rfl
          · have : k ≠ m := by
              rintro rfl
              rw [h4] at hk
              cases hk
            simp [List.count_eq_zero, this]
        · rfl
      | some g =>
        simp only [h4] at h1
        obtain ⟨v, s2, h5, h6⟩ := runs_bind.1 h1
        obtain ⟨rfl, rfl⟩ := runs_pure.1 h6
        obtain ⟨n, hn⟩ := h5
        have hn' : run H n (.getter g) st = some (v, s1) := by
          simp only [exec, call, interp] at hn
          cases hx : run H n (.getter g) st with
          | none => simp [hx] at hn
          | some x =>
            simp only [hx, interp, Option.some.injEq, Prod.mk.injEq] at hn
            rw [← hn.1, ← hn.2]
        obtain ⟨hs, hgs, hrw, hrg, r', h8, h9⟩ := h.sp c0 ns0 rfl
        rw [hr] at h8
        cases h8
        obtain ⟨K1, J1, w1, e1, j1, m1, _, _, hv, r1, n1⟩ := spAny_ok hH h (h9 _ (getter_mem_cols h4)) hn'
        refine fin w1 e1 j1 m1 (fun ha _ => (ha.mono e1.le).set _ (VW.mono w1.le hv)) (by rw [r1, hr]) (fun k => ?_)
        rw [n1]
        congr 1
        unfold missing
        by_cases hk : k = m
        · subst hk
          rw [h4, h3]
          cases g <;> simp
        · have : ([m] : List Str).count k = 0 := by
            rw [List.count_eq_zero]
            simpa using hk
          rw [this]
          cases g <;> simp [hk] <;> split <;> rfl

/-- Materializing the row singled out. -/
theorem matRow_sp (hH : H.Within true) {c0 ns0 : Nat} {r : RowCell F} {K J : Know} {st st' : St F S}
    {out : V F} (h : Wd true (some (c0, ns0)) K J st) (hr : st.rows[c0]? = some r)
    (hrun : Runs H (matRowP c0) st out st') :
    ∃ K' J', Wd true (some (c0, ns0)) K' J' st' ∧ KExt st K K' ∧ KExt st J J' ∧ Same (some (c0, ns0)) K st st' ∧
      (K.rw c0 → VW K' out) ∧ st'.rows[c0]? = some r ∧
      ∀ k, st'.evals.count (k, ns0) = st.evals.count (k, ns0) + missing r (r.cols.map (·.1)) k := by
  unfold matRowP at hrun
  rw [runs_pb] at hrun
  simp only [Prim.step, hr] at hrun
  obtain ⟨d, s1, h1, h2⟩ := runs_bind.1 hrun
  obtain ⟨rfl, rfl⟩ := runs_pure.1 h2
  obtain ⟨K', J', w, e, j, m, hd, hr', hn⟩ := matCols_sp hH _ h hr h1
  refine ⟨K', J', w, e, j, m, fun hc => vw_dict.2 (hd (fun p hp => nomatch hp) ?_), hr', hn⟩
  obtain ⟨r2, h3, h4⟩ := h.closed.rw c0 hc
  rw [hr] at h3
  cases h3
  exact h4

omit [FloatOps F] in
/-- The columns of a row built for a source row with known members. -/
theorem specCols_sp {J : Know} {d : OD (V F)} (hd : QD J d) (all : Bool) (cols : List Col) (ns : Nat) :
    ∀ p ∈ specCols H all cols ns d, SpCol J ns p := by
  have hstar : ∀ acc : List (Str × Getter F), (∀ p ∈ acc, SpCol J ns p) → ∀ p ∈ starCols d acc, SpCol J ns p := by
    intro acc ha p hp
    rcases List.mem_append.1 hp with hp | hp
    · exact ha p hp
    · obtain ⟨q, hq, rfl⟩ := List.mem_map.1 hp
      exact hd q (List.mem_filter.1 hq).1
  unfold specCols
  have hfold : ∀ (cols : List Col) (acc : List (Str × Getter F)), (∀ p ∈ acc, SpCol J ns p) →
      ∀ p ∈ cols.foldl (fun acc c => if H.colName c = bs "*" then starCols d acc
        else acc ++ [(H.colName c, .col c (H.colName c) ns)]) acc, SpCol J ns p := by
    intro cols
    induction cols with
    | nil => exact fun acc ha => ha
    | cons c cols ih =>
      intro acc ha
      refine ih _ ?_
      by_cases hc : H.colName c = bs "*"
      · simp only [hc, if_true]
        exact hstar acc ha
      · simp only [hc, if_false]
        intro p hp
        rcases List.mem_append.1 hp with hp | hp
        · exact ha p hp
        · rw [List.mem_singleton.1 hp]
          exact ⟨rfl, rfl⟩
  refine hfold cols _ ?_
  split
  · exact hstar [] (fun p hp => nomatch hp)
  · exact fun p hp => nomatch hp

/-- One row of a query without GROUP BY: `cell` is the lazy row, `b` the verdict of WHERE. -/
theorem verdict_sp (hH : H.Within true) {J0 : Know} {st s1 : St F S} (h : Fit J0 st) {s : Nat} (hs : J0.sc s)
    {row : V F} (hr : VW J0 row) {d : OD (V F)} (ha : Answers H row d) (hd : QD J0 d) {all : Bool} {cols : List Col}
    {w : Option Comma} {cell : Nat} {b : Bool} (hv : Verdict H all cols w s row st cell b s1) :
    cell = st.rows.length ∧ ∃ K J r, Wd true (some (cell, st.scopes.length + 1)) K J s1 ∧ K.rw cell ∧
      s1.rows[cell]? = some r ∧ r.cols = specCols H all cols (st.scopes.length + 1) d ∧
      (∀ k, s1.evals.count (k, st.scopes.length + 1) = st.evals.count (k, st.scopes.length + 1) +
        match r.getter k with
        | some (.col _ _ _) => if (OD.get r.cache k).isSome then 1 else 0
        | _ => 0) ∧ KExt st J0 K ∧ (w = none → r.cache = []) := by
  obtain ⟨s0, ht, hw⟩ := hv
  obtain ⟨rfl, rfl⟩ := (runs_transform ha).1 ht
  refine ⟨rfl, ?_⟩
  simp only [push_len, push_rows] at *
  have hlt := h.closed.sc.lt hs
  have hvars : ∀ v ∈ (st.scp s).vars ++ [], VW J0 v := by
    rw [List.append_nil]
    exact h.closed.scp hs
  have f1 := h.push (h.closed.sp s hs) hvars
  have hl1 := J0.le_addScp st.scopes.length
  have f2 := f1.push (s := st.scopes.length) (vs := [row]) (Or.inr rfl) (by
    rw [push_scp]
    intro v hm
    simp only [List.append_nil, List.mem_append, List.mem_singleton] at hm
    rcases hm with hm | rfl
    · exact VW.mono hl1 (h.closed.scp hs v hm)
    · exact VW.mono hl1 hr)
  have hl2 := (J0.addScp st.scopes.length).le_addScp (st.scopes.length + 1)
  simp only [push_len] at f2
  have hgs : ¬((J0.addScp st.scopes.length).addScp (st.scopes.length + 1)).gs (st.scopes.length + 1) := by
    intro hg
    have := h.closed.sc.lt (h.closed.gs _ hg)
    omega
  have w0 := f2.sp (ns := st.scopes.length + 1) (Or.inr rfl) hgs
    (specCols_sp (H := H) (hd.mono (hl1.trans hl2)) all cols (st.scopes.length + 1)) (E := fun _ => False)
    (fun _ e => e.elim) (fun _ e => e.elim)
  have seen := seen_addRow ((st.push s []).push st.scopes.length [row])
    (specCols H all cols (st.scopes.length + 1) d) (st.scopes.length + 1)
  simp only [push_rows] at w0 seen
  have hns : ((((st.push s []).push st.scopes.length [row]).addRow
    (specCols H all cols (st.push s []).scopes.length d))).scopes.length = (((st.push s []).push st.scopes.length [row]).addRow
    (specCols H all cols (st.scopes.length + 1) d)).scopes.length := by rw [push_len]
  rw [hns] at hw
  generalize hs0 : (((st.push s []).push st.scopes.length [row]).addRow
    (specCols H all cols (st.scopes.length + 1) d)) = s0 at *
  have hrow0 : s0.rows[st.rows.length]? = some ⟨specCols H all cols (st.scopes.length + 1) d, []⟩ := by
    rw [← hs0]
    exact addRow_get ((st.push s []).push st.scopes.length [row]) _
  have e0 : KExt st J0 (((J0.addScp st.scopes.length).addScp (st.scopes.length + 1)).addSp (fun _ => False) st.rows.length) := by
    refine ⟨(hl1.trans hl2).trans (Know.le_addSp _ _ _), ?_, fun i hi => Or.inl hi, ?_, fun i hi => Or.inl hi, ?_,
      fun i hi => Or.inl hi, fun i hi => Or.inl hi, fun i hi => Or.inl hi⟩
    · rintro i (((hi | hi) | hi) | hi)
      · exact Or.inl hi
      · exact Or.inr (by omega)
      · exact Or.inr (by omega)
      · exact hi.elim
    · rintro i ((hi | hi) | hi)
      · exact Or.inl hi
      · exact Or.inr (by omega)
      · exact Or.inr (by omega)
    · rintro i (hi | hi)
      · exact Or.inl hi
      · exact Or.inr (by omega)
  have hLen : Len st s0 := by
    rw [← hs0]
    exact ⟨by simp [St.addRow, St.push], Nat.le_refl _, by simp [St.addRow, St.push], Nat.le_refl _, Nat.le_refl _⟩
  cases w with
  | none =>
    obtain ⟨_, rfl⟩ := hw
    obtain ⟨r, h1, h2⟩ := seen
    rw [hrow0] at h1
    cases h1
    exact ⟨_, _, _, w0, Or.inr rfl, hrow0, rfl, h2, e0, fun _ => rfl⟩
  | some w =>
    obtain ⟨v, s2, h3, h4⟩ := hw
    have hrun : Runs H (do
        let ns ← prim (.copy st.scopes.length)
        prim (.append ns row)
        prim (.append ns (.obj (.row st.rows.length)))
        let v ← call (.comma w ns)
        H.truth v s) s0 b s1 := by
      rw [runs_pb, copy_push, runs_pb, append_push, runs_pb, append_push]
      exact runs_bind.2 ⟨v, s2, h3, h4⟩
    obtain ⟨K', J', t, _⟩ := runs_sp (Q := QT) hH w0 (by
      refine ⟨Or.inl (Or.inl (Or.inr rfl)), fun L ns hL g1 g2 => ⟨List.mem_cons_self, VW.mono (e0.le.trans hL) hr,
        List.mem_cons_self, vw_obj.2 (hL.rw (Or.inr rfl)), g1, fun M v hM hvM => ?_⟩⟩
      exact within_truth hH ((e0.le.trans (hL.trans hM)).sc hs) hvM) hrun
    obtain ⟨r, h5, h6⟩ := t.kept _ _ _ rfl seen
    obtain ⟨r2, h7, h8⟩ := hrun.grows.rows st.rows.length _ hrow0
    rw [h5] at h7
    cases h7
    exact ⟨K', J', r, t.wd, t.ext.le.rw (Or.inr rfl), h5, h8, h6, e0.trans hLen t.ext, by simp⟩

/-! ## What is left behind

`B` is the part of the heap that exists before the row is processed.  It stays closed: nothing
made for the row becomes part of it. -/

omit [FloatOps F] in
theorem Fit.wdB {B : Know} {st : St F S} (h : Fit B st) : Wd true none B B st :=
  ⟨Or.inl rfl, h.closed, h.closed, Know.Le.refl B, fun c hc => Or.inl (h.rg c hc), h.rg, fun c ns e => by cases e⟩

omit [FloatOps F] in
theorem Wd.fitJ {K B : Know} {st : St F S} (h : Wd true none K B st) : Fit B st := ⟨h.closedJ, h.rgJ⟩

/-- The state in which WHERE is evaluated. -/
def St.setup (st : St F S) (H : Host F S) (all : Bool) (cols : List Col) (s : Nat) (row : V F) (d : OD (V F)) : St F S :=
  ((st.push s []).push st.scopes.length [row]).addRow (specCols H all cols (st.scopes.length + 1) d)

/-- What is known then. -/
def Know.setup (B : Know) (st : St F S) : Know :=
  ((B.addSc st.scopes.length).addSc (st.scopes.length + 1)).addRw st.rows.length

theorem setup_base {B : Know} {st : St F S} (h : Fit B st) {s : Nat} (hs : B.sc s) {row : V F} (hr : VW B row)
    {d : OD (V F)} (hd : QD B d) {all : Bool} {cols : List Col} :
    Tr true true none B B st (B.setup st) B (st.setup H all cols s row d) := by
  have t1 := tr_copy (gp := true) h.wdB hs
  rw [copy_push] at t1
  have hl1 := B.le_addSc st.scopes.length
  have t2 := tr_copy (gp := true) t1.wd (s := st.scopes.length) (Or.inr rfl)
  rw [copy_push] at t2
  simp only [push_len] at t2
  have hl2 := (B.addSc st.scopes.length).le_addSc (st.scopes.length + 1)
  have t3 := tr_append (gp := true) t2.wd (s := st.scopes.length + 1) (v := row) (Or.inr rfl)
    (fun hx => by have := h.closed.sc.lt hx; omega) (hr.mono (hl1.trans hl2))
  have e3 : ((st.push s []).push st.scopes.length []).appendVar (st.scopes.length + 1) row =
      (st.push s []).push st.scopes.length [row] := by
    have := append_push (st.push s []) st.scopes.length [] row
    rw [push_len] at this
    exact congrArg Prod.snd this
  rw [e3] at t3
  have t4 := tr_newRow (gp := true) t3.wd (cols := specCols H all cols (st.scopes.length + 1) d) (by
    intro p hp
    have := specCols_sp (H := H) (hd.mono (hl1.trans hl2)) all cols (st.scopes.length + 1) p hp
    unfold SpCol at this
    obtain ⟨k, g⟩ := p
    cases g with
    | const v => exact this
    | col c n i =>
      obtain ⟨_, rfl⟩ := this
      exact ⟨Or.inr rfl, Or.inr rfl⟩)
  exact ((t1.trans t2).trans t3).trans t4

omit [FloatOps F] in
theorem setup_rows (st : St F S) (all : Bool) (cols : List Col) (s : Nat) (row : V F) (d : OD (V F)) :
    (st.setup H all cols s row d).rows.length = st.rows.length + 1 := by
  simp [St.setup, St.addRow]

omit [FloatOps F] in
theorem setup_scopes (st : St F S) (all : Bool) (cols : List Col) (s : Nat) (row : V F) (d : OD (V F)) :
    (st.setup H all cols s row d).scopes.length = st.scopes.length + 2 := by
  simp [St.setup]

/-- The part of the heap that exists before a row is processed is still closed afterwards, and the
row and its scopes are not in it. -/
theorem process_base (hH : H.Within true) {B : Know} {st st' : St F S} (h : Fit B st) {s : Nat} (hs : B.sc s)
    {row : V F} (hr : VW B row) {d : OD (V F)} (ha : Answers H row d) (hd : QD B d) {all : Bool} {cols : List Col}
    {w : Option Comma} {out : List (V F)} (hrun : Runs H (processRowP H all cols w s row) st out st') :
    ∃ B', Fit B' st' ∧ KExt st B B' ∧ ¬B'.rw st.rows.length ∧ ¬B'.gs (st.scopes.length + 1) ∧
      ¬B'.sc st.scopes.length ∧ ¬B'.sc (st.scopes.length + 1) ∧ st.scopes.length + 2 ≤ st'.scopes.length := by
  obtain ⟨cell, b, s1, ⟨s0, ht, hw⟩, ho⟩ := runs_processRow.1 hrun
  obtain ⟨rfl, hs0⟩ := (runs_transform ha).1 ht
  rw [push_len] at hs0
  have hs0 : s0 = st.setup H all cols s row d := hs0
  have t0 := setup_base (H := H) h hs hr hd (all := all) (cols := cols)
  rw [← hs0] at t0
  have e1 : s0.rows.length = st.rows.length + 1 := by rw [hs0]; exact setup_rows _ _ _ _ _ _
  have e2 : s0.scopes.length = st.scopes.length + 2 := by rw [hs0]; exact setup_scopes _ _ _ _ _ _
  simp only [push_len, push_rows] at *
  have fin : ∀ {K' B' : Know} {s2 : St F S}, Tr true true none (B.setup st) B s0 K' B' s2 →
      Fit B' s2 ∧ KExt st B B' ∧ ¬B'.rw st.rows.length ∧ ¬B'.gs (st.scopes.length + 1) ∧
      ¬B'.sc st.scopes.length ∧ ¬B'.sc (st.scopes.length + 1) ∧ st.scopes.length + 2 ≤ s2.scopes.length := by
    intro K' B' s2 t
    refine ⟨t.wd.fitJ, (t0.trans t).extJ, fun hx => ?_, fun hx => ?_, fun hx => ?_, fun hx => ?_,
      by have := t.same.len.sc; omega⟩
    · rcases t.extJ.rw _ hx with hx | hx
      · have := h.closed.rw.lt hx; omega
      · omega
    · rcases t.extJ.gs _ hx with hx | hx
      · have := h.closed.sc.lt (h.closed.gs _ hx); omega
      · omega
    · rcases t.extJ.sc _ hx with hx | hx
      · have := h.closed.sc.lt hx; omega
      · omega
    · rcases t.extJ.sc _ hx with hx | hx
      · have := h.closed.sc.lt hx; omega
      · omega
  have hcell : QR (B.setup st) st.rows.length := ⟨Or.inr rfl, Or.inr rfl⟩
  have t1 : ∃ K' B', Tr true true none (B.setup st) B s0 K' B' s1 := by
    cases w with
    | none =>
      obtain ⟨_, rfl⟩ := hw
      exact ⟨_, _, Tr.refl t0.wd⟩
    | some w =>
      obtain ⟨v, s2, h3, h4⟩ := hw
      have hrun : Runs H (do
          let ns ← prim (.copy st.scopes.length)
          prim (.append ns row)
          prim (.append ns (.obj (.row st.rows.length)))
          let v ← call (.comma w ns)
          H.truth v s) s0 b s1 := by
        rw [runs_pb, copy_push, runs_pb, append_push, runs_pb, append_push]
        exact runs_bind.2 ⟨v, s2, h3, h4⟩
      obtain ⟨K', J', t, _⟩ := runs_sp (Q := QT) hH t0.wd (by
        refine ⟨Or.inl (Or.inr rfl), fun L ns hL g1 g2 => ⟨List.mem_cons_self, VW.mono (t0.ext.le.trans hL) hr,
          List.mem_cons_self, vw_obj.2 (hL.rw (Or.inr rfl)), g1, fun M v hM hvM => ?_⟩⟩
        exact within_truth hH ((t0.ext.le.trans (hL.trans hM)).sc hs) hvM) hrun
      exact ⟨K', J', t⟩
  obtain ⟨K1, B1, t1⟩ := t1
  cases b with
  | false =>
    obtain ⟨_, rfl⟩ : out = [] ∧ st' = s1 := by simpa using ho
    exact ⟨B1, fin t1⟩
  | true =>
    obtain ⟨o, hm, _⟩ : ∃ o, Runs H (matRowP st.rows.length) s1 o st' ∧ out = [o] := by simpa using ho
    obtain ⟨K2, B2, t2, _⟩ := runs_sp (Q := VW) hH t1.wd
      (within_matRowP ⟨t1.ext.le.rw hcell.1, t1.ext.le.rg hcell.2⟩) hm
    exact ⟨B2, fin (t1.trans t2)⟩

end
end Vfilter.Vql
