import Verif.Props.EvalOnce
/-!
# C30: the aggregates of one group are not touched by the rows of another

Each group has an aggregator context of its own (`C30_contexts`).  Here: while a row is
processed, from the evaluation of its columns to everything they call, the contexts of the
other groups do not change.
-/
set_option linter.all false

namespace Vfilter.Vql

section
variable {F S : Type}

/-- A context that holds plain values may be known. -/
theorem Wd.knowCx {K J : Know} {st : St F S} (h : Wd true none K J st) (hp : PlainCtx st) {c : Nat}
    (hc : c < st.ctxs.length) : Wd true none (K.addCx c) J st := by
  have hl := K.le_addCx c
  refine ⟨Or.inl rfl, ⟨h.closed.sc.mono (fun x hx => hx.mono hl), h.closed.gs, h.closed.pa.mono (fun x hx => hx.mono hl),
    h.closed.sp, h.closed.lz.mono (fun x hx => hx.mono hl), h.closed.rw.mono (fun x hx => hx.mono hl),
    h.closed.rg.mono (fun x hx => hx.mono hl), h.closed.si.mono (fun x hx => hx.mono hl), ?_⟩, h.closedJ, h.le.trans hl,
    h.rg, h.rgJ, fun c ns e => by cases e⟩
  rintro i (hi | hi)
  · obtain ⟨x, hx, hw⟩ := h.closed.cx i hi
    exact ⟨x, hx, hw.mono hl⟩
  · subst hi
    exact ⟨_, List.getElem?_eq_getElem hc, (hp _ (List.getElem_mem hc)).mono (Know.none_le _)⟩

variable [FloatOps F] {H : Host F S}

/-- The scopes, the row and the values of a source row up to its group key. -/
theorem keyed_base (hH : H.Within true) {B : Know} {st st' : St F S} (h : Fit B st) {g : Nat} (hg : B.sc g)
    {row : V F} (hr : VW B row) {d : OD (V F)} (ha : Answers H row d) (hd : QD B d) {all : Bool} {cols : List Col}
    {w : Option Comma} {gb : Comma} {res : Option (Str × Nat)} (hk : Keyed H all cols w gb g row st res st') :
    (∀ k cell, res = some (k, cell) → cell = st.rows.length) ∧
    ∃ K B', Tr true true none B B st K B' st' ∧ K.sc st.scopes.length ∧ ¬B'.pa st.scopes.length ∧ QR K st.rows.length := by
  obtain ⟨cell, s1, b, s2, ht, hp, hb⟩ := hk
  obtain ⟨rfl, hs1⟩ := (runs_transform ha).1 ht
  rw [push_len] at hs1
  have hs1 : s1 = st.setup H all cols g row d := hs1
  refine ⟨?_, ?_⟩
  · intro k cell e
    cases b with
    | false =>
      simp only [Bool.false_eq_true, if_false] at hb
      rw [hb.1] at e
      cases e
    | true =>
      simp only [if_true] at hb
      obtain ⟨_, _, _, _, _, e'⟩ := hb
      rw [e'] at e
      cases e
      rfl
  have t0 := setup_base (H := H) h hg hr hd (all := all) (cols := cols)
  rw [← hs1] at t0
  have e2 : s1.scopes.length = st.scopes.length + 2 := by rw [hs1]; exact setup_scopes _ _ _ _ _ _
  simp only [push_rows] at *
  have hL : (B.setup st).sc st.scopes.length := Or.inl (Or.inr rfl)
  have hB : ¬B.pa st.scopes.length := fun hx => by have := h.closed.pa.lt hx; omega
  have hBs : ¬B.sc st.scopes.length := fun hx => hB (h.closed.sp _ hx)
  have t1 := tr_append (gp := true) t0.wd (s := st.scopes.length) (v := row) hL hBs (hr.mono t0.ext.le)
  have t2 := tr_append (gp := true) t1.wd (s := st.scopes.length) (v := .obj (.row st.rows.length)) hL hBs
    (vw_obj.2 (Or.inr rfl))
  have hrow : QR (B.setup st) st.rows.length := ⟨Or.inr rfl, Or.inr rfl⟩
  obtain ⟨K3, J3, t3, _⟩ := runs_sp hH t2.wd (within_passP hH w hL (t0.ext.le.sc hg)) hp
  have t13 := (t1.trans t2).trans t3
  have fin : ∀ {K B' : Know} {s3 : St F S}, Tr true true none (B.setup st) B s1 K B' s3 →
      ∃ K B', Tr true true none B B st K B' s3 ∧ K.sc st.scopes.length ∧ ¬B'.pa st.scopes.length ∧ QR K st.rows.length := by
    intro K B' s3 t
    refine ⟨K, B', t0.trans t, t.ext.le.sc hL, fun hx => ?_, t.ext.le.rw hrow.1, t.ext.le.rg hrow.2⟩
    rcases t.extJ.pa _ hx with hx | hx
    · exact hB hx
    · omega
  cases b with
  | false =>
    simp only [Bool.false_eq_true, if_false] at hb
    obtain ⟨_, rfl⟩ := hb
    exact fin t13
  | true =>
    simp only [if_true] at hb
    obtain ⟨v, s3, k, h1, h2, _⟩ := hb
    have hK3 : K3.sc st.scopes.length := t13.ext.le.sc hL
    obtain ⟨K4, J4, t4, hv⟩ := runs_sp (Q := VW) hH t3.wd (p := call (.comma gb st.scopes.length)) ⟨hK3, fun L r hL hr => hr⟩ h1
    obtain ⟨K5, J5, t5, _⟩ := runs_sp (Q := QT) hH t4.wd (hH.toStr K4 v _ (t4.ext.le.sc hK3) hv) h2
    exact fin ((t13.trans t4).trans t5)

/-- Entries whose contexts are not part of the heap `B` the query started with. -/
def Apart (B : Know) (st : St F S) (hist : List (Entry F)) : Prop := ∀ e ∈ hist, e.ctx < st.ctxs.length ∧ ¬B.cx e.ctx

/-- One row. -/
theorem group_base (hH : H.Within true) {B : Know} {st st' : St F S} (h : Fit B st) (hpl : PlainCtx st) {g : Nat} (hg : B.sc g)
    {row : V F} (hr : VW B row) {d : OD (V F)} (hsrc : SrcRow H row d)
    {all : Bool} {cols : List Col} {where_ : Option Comma} {gb : Comma} {hist new : List (Entry F)}
    (hc : Apart B st hist) (hstep : GroupStep H all cols where_ gb g hist row st new st') :
    ∃ B', Fit B' st' ∧ KExt st B B' ∧ PlainCtx st' ∧ Apart B' st' (hist ++ new) ∧
      ∀ e ∈ hist, (∀ n ∈ new, n.ctx ≠ e.ctx) → st'.ctxs[e.ctx]? = st.ctxs[e.ctx]? := by
  obtain ⟨res, s1, hk, hm⟩ := hstep
  obtain ⟨hcell, K1, B1, t1, hL, hB1, hrow⟩ := keyed_base hH h hg hr hsrc.1 (hsrc.2 _ hr) hk
  have keep : ∀ {B' : Know} {s2 : St F S}, KExt st B B' → Len st s2 → Apart B' s2 hist := by
    intro B' s2 e l x hx
    obtain ⟨h1, h2⟩ := hc x hx
    refine ⟨Nat.lt_of_lt_of_le h1 l.cx, fun hx => ?_⟩
    rcases e.cx _ hx with h3 | h3
    · exact h2 h3
    · omega
  cases res with
  | none =>
    obtain ⟨rfl, rfl⟩ := hm
    refine ⟨B1, t1.wd.fitJ, t1.extJ, t1.plain rfl hpl, by simpa using keep t1.extJ t1.same.len, fun e he _ => ?_⟩
    exact t1.same.cx _ (hc e he).1 (hc e he).2
  | some kc =>
    obtain ⟨k, cell⟩ := kc
    obtain rfl := hcell k cell rfl
    obtain ⟨c, s2, out, h4, h5, rfl⟩ := hm
    have key : ∃ K2, Wd true none (K2.addCx c) B1 s2 ∧ K1.Le K2 ∧ K2.cx = K1.cx ∧ c < s2.ctxs.length ∧ ¬B1.cx c ∧ Len s1 s2 ∧
        PlainCtx s2 ∧ (∀ i < s1.ctxs.length, s2.ctxs[i]? = s1.ctxs[i]?) ∧ s2.scopes = s1.scopes := by
      cases hl : lastOf k hist with
      | none =>
        simp only [hl] at h4
        obtain ⟨rfl, rfl⟩ := h4
        have t := tr_mkCtx (gp := true) t1.wd
        exact ⟨K1, t.wd, Know.Le.refl _, rfl, by simp, fun hx => by have := t1.wd.closedJ.cx.lt hx; omega, t.same.len,
          t.plain rfl (t1.plain rfl hpl), fun i hi => by simp [List.getElem?_append_left hi], rfl⟩
      | some e =>
        simp only [hl] at h4
        obtain ⟨rfl, rfl⟩ := h4
        have he : e ∈ hist := by
          obtain ⟨pre, post, rfl, _⟩ := C30_last hl
          simp
        obtain ⟨h6, h7⟩ := keep t1.extJ t1.same.len e he
        exact ⟨K1, t1.wd.knowCx (t1.plain rfl hpl) h6, Know.Le.refl _, rfl, h6, h7, Len.refl _, t1.plain rfl hpl,
          fun _ _ => rfl, rfl⟩
    obtain ⟨K2, w2, l2, ecx, c1, c2, len2, pl2, same2, sc2⟩ := key
    have t3 := tr_setAg (gp := true) w2 (s := st.scopes.length) (c := c) (w2.closed.sp _ (l2.sc hL)) (fun hx => absurd hx hB1) (Or.inr rfl)
    obtain ⟨K4, B4, t4, _⟩ := runs_sp (Q := VW) hH t3.wd
      (within_matRowP ⟨l2.rw hrow.1, l2.rg hrow.2⟩) h5
    have t := t3.trans t4
    have len3 := (t1.same.len.trans len2).trans t.same.len
    have e3 : KExt st B B4 := t1.extJ.trans (t1.same.len.trans len2) t.extJ
    refine ⟨B4, t.wd.fitJ, e3, t.plain rfl pl2, ?_, ?_⟩
    · intro x hx
      rcases List.mem_append.1 hx with hx | hx
      · exact keep e3 len3 x hx
      · rw [List.mem_singleton.1 hx]
        refine ⟨Nat.lt_of_lt_of_le c1 t.same.len.cx, fun hx => ?_⟩
        rcases t.extJ.cx _ hx with h8 | h8
        · exact c2 h8
        · simp only at h8
          omega
    · intro e he hne
      have hne : c ≠ e.ctx := hne _ (List.mem_singleton.2 rfl)
      obtain ⟨h6, h7⟩ := hc e he
      have h8 := Nat.lt_of_lt_of_le h6 t1.same.len.cx
      rw [t.same.cx _ (Nat.lt_of_lt_of_le h8 len2.cx) ?_, same2 _ h8, t1.same.cx _ h6 h7]
      rintro (hx | hx)
      · rw [ecx] at hx
        rcases t1.ext.cx _ hx with h9 | h9
        · exact h7 h9
        · omega
      · exact hne hx.symm

/-- The rows of a GROUP BY one after the other; a row leaves the aggregator contexts of the groups it
does not belong to unchanged. -/
inductive GroupedApart (H : Host F S) (all : Bool) (cols : List Col) (where_ : Option Comma) (gb : Comma) (g : Nat) :
    List (Entry F) → List (V F) → St F S → List (Entry F) → St F S → Prop where
  | nil (hist : List (Entry F)) (st : St F S) : GroupedApart H all cols where_ gb g hist [] st hist st
  | cons {hist new out : List (Entry F)} {row : V F} {rows : List (V F)} {st s1 s2 : St F S} :
      GroupStep H all cols where_ gb g hist row st new s1 →
      (∀ e ∈ hist, (∀ n ∈ new, n.key ≠ e.key) → s1.ctxs[e.ctx]? = st.ctxs[e.ctx]?) →
      GroupedApart H all cols where_ gb g (hist ++ new) rows s1 out s2 →
      GroupedApart H all cols where_ gb g hist (row :: rows) st out s2

theorem grouped_apart (hH : H.Within true) {all : Bool} {cols : List Col} {where_ : Option Comma} {gb : Comma} {g : Nat}
    {hist out : List (Entry F)} {rows : List (V F)} {st st' : St F S}
    (h : Grouped H all cols where_ gb g hist rows st out st') : ∀ {B : Know}, Fit B st → PlainCtx st → B.sc g → QL B rows →
      Apart B st hist → (∀ row ∈ rows, ∃ d, SrcRow H row d) →
      (∀ e ∈ out, ∀ e' ∈ out, e.ctx = e'.ctx ↔ e.key = e'.key) →
      GroupedApart H all cols where_ gb g hist rows st out st' := by
  have sub : ∀ {hist rows st out st'}, Grouped H all cols where_ gb g hist rows st out st' → ∀ e ∈ hist, e ∈ out := by
    intro hist rows st out st' h
    induction h with
    | nil => exact fun e he => he
    | cons _ _ ih => exact fun e he => ih e (List.mem_append_left _ he)
  induction h with
  | nil hist st => exact fun _ _ _ _ _ _ _ => .nil _ _
  | @cons hist new out row rows st s1 s2 h1 h2 ih =>
    intro B hf hp hg hr ha hsrc hinj
    obtain ⟨d, hd⟩ := hsrc row List.mem_cons_self
    obtain ⟨B', f', e', p', a', k'⟩ := group_base hH hf hp hg (hr row List.mem_cons_self) hd ha h1
    refine .cons h1 (fun e he hne => k' e he (fun n hn hx => hne n hn ?_))
      (ih f' p' (e'.le.sc hg) (QL.mono e'.le (fun x hx => hr x (List.mem_cons_of_mem _ hx))) a'
        (fun x hx => hsrc x (List.mem_cons_of_mem _ hx)) hinj)
    exact (hinj n (sub h2 n (List.mem_append_right _ hn)) e (sub h2 e (List.mem_append_left _ he))).1 hx

/-- **C30** The aggregates of a group range over the rows of that group only: in
`SELECT .. FROM .. WHERE .. GROUP BY k` the aggregator context of a group changes only while a row
of that group is processed.

The host keeps to the values it is given and its aggregate functions do not store their arguments
(`Host.Within true`); the query starts in a closed part `J` of the heap where the contexts hold plain
values; the source rows are dicts or NULL. -/
theorem C30_isolated_partial (hH : H.Within true) {J : Know} {st st' : St F S} (h : Fit J st) (hp : PlainCtx st)
    {s : Nat} (hs : J.sc s) {ex all : Bool} {cols : List Col} {from_ : Plugin} {where_ : Option Comma} {gb : Comma}
    {out : List (V F)}
    (hrun : Runs H (call (.select (.mk ex all cols from_ where_ (some gb) none none) s)) st out st') :
    ∃ rows s1, Runs H (call (.plugin from_ s)) st rows s1 ∧
      ((∀ row ∈ rows, ∃ d, SrcRow H row d) → ∃ hist,
        GroupedApart H all cols where_ gb s1.scopes.length [] rows (s1.push s []) hist st' ∧ out = groupRows hist) := by
  obtain ⟨rows, s1, hist, h1, h2, rfl⟩ := C30_groups.1 hrun
  refine ⟨rows, s1, h1, fun hsrc => ⟨hist, ?_, rfl⟩⟩
  obtain ⟨K, f, e, m, hp1, _, hr⟩ := runs_within (Q := QL) hH h (p := call (.plugin from_ s)) ⟨hs, fun L r hL hr => hr⟩ h1
  have f2 := f.push (s := s) (vs := []) (f.closed.sp _ (e.le.sc hs)) (by
    rw [List.append_nil]
    exact f.closed.scp (e.le.sc hs))
  refine grouped_apart hH h2 f2 (hp1 rfl hp) (Or.inr rfl) (QL.mono (K.le_addScp _) hr)
    (fun e he => nomatch he) hsrc (C30_contexts h2).1

end
end Vfilter.Vql
