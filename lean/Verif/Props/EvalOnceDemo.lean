import Verif.EvalWithinStd
import Verif.Props.EvalIsolate
/-!
# C29, C30: the built-in functions; examples; a column name used twice
-/
set_option linter.all false

namespace Vfilter.Vql

/-- What can be reached in the initial state: the root scope. -/
def Know.root : Know :=
  { Know.none with sc := fun i => i = 0, pa := fun i => i = 0 }

theorem fit_init {vars : OD (V F64)} (hv : DataD vars) : Fit Know.root (St.init vars) where
  closed := by
    refine ⟨?_, fun _ h => False.elim h, ?_, fun _ h => h, fun _ h => False.elim h, fun _ h => False.elim h,
      fun _ h => False.elim h, fun _ h => False.elim h, fun _ h => False.elim h⟩
    · rintro i (rfl : i = 0)
      refine ⟨_, rfl, fun v hm => ?_⟩
      rw [List.mem_singleton.1 hm]
      exact vw_of_data (by simpa [Data] using hv)
    · rintro i (rfl : i = 0)
      exact ⟨_, rfl, ⟨fun p h => by simp at h, fun p h => by simp at h⟩⟩
  rg := fun _ h => False.elim h

/-- The built-in functions except `enumerate()`, with fixed sources. -/
def demo1 (sources : OD (List (V F64))) : Host F64 Unit := noEnum (demo sources)

theorem demoNum_data (t : Str) (v : V F64) (h : demoNum t = some v) : Data v := by
  unfold demoNum at h
  split at h
  · cases h
    simp [Data]
  · cases h

theorem demo1_within {sources : OD (List (V F64))} (h : ∀ p ∈ sources, DataL p.2) : (demo1 sources).Within true :=
  noEnum_within ⟨demoNum_data, h⟩

theorem specCols_plain {F S : Type} [FloatOps F] {H : Host F S} {cols : List Col} (h : ∀ c ∈ cols, H.colName c ≠ bs "*") (ns : Nat) (d : OD (V F)) :
    (specCols H false cols ns d).map (·.1) = cols.map H.colName := by
  have : ∀ (cols : List Col), (∀ c ∈ cols, H.colName c ≠ bs "*") → ∀ acc : List (Str × Getter F),
      (cols.foldl (fun acc c =>
        if H.colName c = bs "*" then starCols d acc
        else acc ++ [(H.colName c, .col c (H.colName c) ns)]) acc).map (·.1) = acc.map (·.1) ++ cols.map H.colName := by
    intro cols
    induction cols with
    | nil => intro _ acc; simp
    | cons c cols ih =>
      intro h acc
      rw [List.foldl_cons, if_neg (h c List.mem_cons_self), ih (fun x hx => h x (List.mem_cons_of_mem _ hx))]
      simp
  simpa [specCols] using this cols h []

theorem specCols_expr {F S : Type} [FloatOps F] {H : Host F S} {cols : List Col} (h : ∀ c ∈ cols, H.colName c ≠ bs "*") (ns : Nat) (d : OD (V F)) :
    ∀ p ∈ specCols H false cols ns d, ∃ c, p.2 = .col c (H.colName c) ns := by
  have : ∀ (cols : List Col), (∀ c ∈ cols, H.colName c ≠ bs "*") → ∀ acc : List (Str × Getter F),
      (∀ p ∈ acc, ∃ c, p.2 = .col c (H.colName c) ns) →
      ∀ p ∈ (cols.foldl (fun acc c =>
        if H.colName c = bs "*" then starCols d acc
        else acc ++ [(H.colName c, .col c (H.colName c) ns)]) acc), ∃ c, p.2 = .col c (H.colName c) ns := by
    intro cols
    induction cols with
    | nil => exact fun _ acc h => h
    | cons c cols ih =>
      intro h acc hacc
      rw [List.foldl_cons, if_neg (h c List.mem_cons_self)]
      refine ih (fun x hx => h x (List.mem_cons_of_mem _ hx)) _ (fun p hp => ?_)
      rcases List.mem_append.1 hp with hp | hp
      · exact hacc p hp
      · rw [List.mem_singleton.1 hp]
        exact ⟨c, rfl⟩
  exact this cols h [] (fun p hp => nomatch hp)

theorem forall₂_right {α β : Type} {R : α → β → Prop} {l : List α} {m : List β} (h : List.Forall₂ R l m) :
    ∀ b ∈ m, ∃ a ∈ l, R a b := by
  induction h with
  | nil => exact fun b hb => nomatch hb
  | cons h1 _ ih =>
    intro b hb
    rcases List.mem_cons.1 hb with rfl | hb
    · exact ⟨_, List.mem_cons_self, h1⟩
    · obtain ⟨a, h2, h3⟩ := ih b hb
      exact ⟨a, List.mem_cons_of_mem _ h2, h3⟩

/-- **C29** With the built-in functions, from an initial state with any variables:
`SELECT cols FROM src WHERE w` with distinct column names evaluates each column expression at
most once for each row (the row `items[i]` is built for the source row `i`), whatever the column
expressions, WHERE and the rows are. -/
theorem C29_builtin_partial {name : Str} (hn : name ≠ bs "if" ∧ name ≠ bs "scope" ∧ splitIdent name = [name])
    {ds : List (OD (V F64))} (hd : ∀ d ∈ ds, DataD d)
    (hw : ∀ d ∈ ds, OD.WF d) (hk : ∀ d ∈ ds, ∀ k ∈ OD.keys d, PlainKey k) {vars : OD (V F64)} (hv : DataD vars)
    {ex : Bool} {cols : List Col} (hs : ∀ c ∈ cols, demoName c ≠ bs "*") (hnd : (cols.map demoName).Nodup)
    {where_ : Option Comma} {out : List (V F64)} {st' : St F64 Unit}
    (hrun : Runs (demo1 [(name, ds.map .dict)])
      (call (.select (.mk ex false cols (.mk name true []) where_ none none none) 0)) (St.init vars) out st') :
    ∃ items : List Built, items.length = ds.length ∧ (items.map (·.ns)).Nodup ∧
      out.length = (items.filter (·.ok)).length ∧
      ∀ b ∈ items, (∀ k, st'.evals.count (k, b.ns) ≤ 1) ∧
        (b.ok = true → ∀ k ∈ cols.map demoName, st'.evals.count (k, b.ns) = 1) := by
  have hsrc : ∀ p ∈ [(name, ds.map (fun d => (.dict d : V F64)))], DataL p.2 := by
    intro p hp
    rw [List.mem_singleton.1 hp]
    refine dataL_iff.2 (fun v hm => ?_)
    obtain ⟨d, h1, rfl⟩ := List.mem_map.1 hm
    simpa [Data] using hd d h1
  obtain ⟨rows, s1, h1, h2⟩ := C29_select_partial (demo1_within hsrc) (fit_init hv) (J := Know.root) (s := 0) rfl
    (fun _ h => nomatch h) hrun
  have hp : rows = ds.map .dict := by
    obtain ⟨a, s2, h3, h4⟩ := (runs_plugin_reg (c := name) hn.2.2
      (by simp [demo1, noEnum, demo, stdHost, OD.get]) (by simp [St.init, St.scp])).1 h1
    simp only [demo1, noEnum, demo, stdHost] at h4
    rw [if_neg hn.1, if_neg hn.2.1] at h4
    rw [(runs_pure.1 h4).1]
    simp [OD.get]
  subst hp
  obtain ⟨items, i1, i2, i3⟩ := h2 (fun row hr => by
    obtain ⟨d, h5, rfl⟩ := List.mem_map.1 hr
    exact ⟨d, srcRow_dict (hw d h5) (hk d h5)⟩)
  refine ⟨items, by simpa using i1.length_eq.symm, i2, i3, fun b hb => ?_⟩
  obtain ⟨row, _, h6⟩ := forall₂_right i1 b hb
  have hname : ∀ ns d, ((specCols (demo1 [(name, ds.map (fun d => (.dict d : V F64)))]) false cols ns d).map (·.1)) = cols.map demoName :=
    fun ns d => specCols_plain hs ns d
  refine ⟨C29_at_most_once_partial h6 (fun d _ => by rw [hname]; exact hnd), fun hok k hk => ?_⟩
  obtain ⟨d, r, _, h7, h8, h9⟩ := h6
  have h9 := h9 k
  have hx : isExprCol r k = true := by
    unfold isExprCol RowCell.getter
    rw [h8]
    cases hf : (specCols (demo1 [(name, ds.map (fun d => (.dict d : V F64)))]) false cols b.ns d).reverse.find? (fun p => decide (p.1 = k)) with
    | none =>
      rw [List.find?_eq_none] at hf
      rw [← hname b.ns d] at hk
      obtain ⟨p, hp, rfl⟩ := List.mem_map.1 hk
      exact absurd (hf p (List.mem_reverse.2 hp)) (by simp)
    | some p =>
      obtain ⟨c, e⟩ := specCols_expr hs b.ns d p (List.mem_reverse.1 (List.mem_of_find?_eq_some hf))
      simp [e]
  unfold Computed at h9
  rw [hok, hx, h8, hname] at h9
  simp only [Bool.true_eq_false, if_false, if_true] at h9
  split at h9
  · exact h9
  · rw [h9]
    have h10 := List.nodup_iff_count.1 hnd k
    have h11 := List.count_pos_iff.2 hk
    omega

/-- **C29** Reading a column that was read before evaluates nothing. -/
theorem C29_cached {F S : Type} [FloatOps F] {H : Host F S} {cell : Nat} {k : Str} {st st' : St F S} {r : RowCell F} {v : V F}
    (hr : st.rows[cell]? = some r) (hv : OD.get r.cache k = some v) {s : Nat} {o : Option (V F) × Bool} :
    Runs H (call (.assoc (.obj (.row cell)) (.val (.str k)) s)) st o st' ↔ o = (some v, true) ∧ st' = st := by
  rw [runs_assoc_row, runs_call]
  simp only [body]
  rw [runs_pb]
  simp only [Prim.step, hr, hv]
  exact runs_pure

/-- Three source rows. -/
example : (demo1 demoSrc).Within true := demo1_within (by
  intro p hp
  rw [List.mem_singleton.1 hp]
  simp [DataL, DataD, Data])

/-- `SELECT count() AS n FROM src WHERE n > 1` finishes. -/
example : ∃ out st', Runs (demo1 demoSrc) (call (.select (.mk false false [.ex (.val (.fcall 2 "count" [])) "n"]
    (.src "src") (some (.rel (.name 3 "n") ">" (.int "1"))) none none none) 0)) (St.init []) out st' ∧
    out.length = 2 := by
  have h : ((exec (demo1 demoSrc) 60 (call (.select (.mk false false [.ex (.val (.fcall 2 "count" [])) "n"]
    (.src "src") (some (.rel (.name 3 "n") ">" (.int "1"))) none none none) 0)) (St.init [])).map (·.1.length)) = some 2 := by
    decide +kernel
  obtain ⟨r, h1, h2⟩ := Option.map_eq_some_iff.1 h
  exact ⟨r.1, r.2, ⟨60, h1⟩, h2⟩

/-- **C29 refuted** for two columns of the same name: `SELECT a AS n, count() AS n FROM src` calls
`count()` twice for each row, so the rows are numbered 2, 4, 6. -/
theorem C29_duplicate_refuted : ∃ st', Runs (demo demoSrc) (call (.select (.mk false false
      [.ex (.val (.name 0 "a")) "n", .ex (.val (.fcall 2 "count" [])) "n"]
      (.src "src") none none none none) 0)) (St.init [])
    [.dict [(bs "n", .int 2#64)], .dict [(bs "n", .int 4#64)], .dict [(bs "n", .int 6#64)]] st' :=
  runs_of_gives (by decide +kernel)

end Vfilter.Vql
