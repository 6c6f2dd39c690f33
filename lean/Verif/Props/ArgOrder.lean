import Verif.Props.EvalSame
import Verif.Props.EvalLet
/-!
# C92: the order of arguments does not matter

Arguments are evaluated in the order in which they are written, defaults in the order in which Go visits a map
(stored.go:190), which differs from call to call.  For expressions without aggregates and negated names neither order
matters: the parameters are bound to the same values.
-/
set_option linter.all false

namespace Vfilter.Vql

section
variable {F S : Type} [FloatOps F] {H : Host F S} {tbl : Nat → List Str} {okFn okPl : Str → Prop}

/-- The argument uses no aggregates and no negated names. -/
def ArgOk (H : Host F S) (tbl : Nat → List Str) (okFn okPl : Str → Prop) (a : ArgV) : Prop :=
  ∀ u ∈ usesArgV a, UseOk H (quiet tbl okFn okPl) u

/-- The value is data, or a query, which is not evaluated. -/
def SettledArg (a : ArgV) (v : V F) : Prop := Data v ∨ ∃ q, a = .select q

/-- The scope `s` looks the same in both states. -/
structure Alike (tbl : Nat → List Str) (s : Nat) (st st' : St F S) : Prop where
  lt : s < st.scopes.length
  lt' : s < st'.scopes.length
  vars : (st'.scp s).vars = (st.scp s).vars
  depth : (st'.scp s).depth = (st.scp s).depth
  cache : CacheOk tbl st
  cache' : CacheOk tbl st'

theorem Alike.symm {s : Nat} {st st' : St F S} (h : Alike tbl s st st') : Alike tbl s st' st :=
  ⟨h.lt', h.lt, h.vars.symm, h.depth.symm, h.cache', h.cache⟩

theorem Alike.trans {s : Nat} {a b c : St F S} (h : Alike tbl s a b) (h' : Alike tbl s b c) : Alike tbl s a c :=
  ⟨h.lt, h'.lt', h'.vars.trans h.vars, h'.depth.trans h.depth, h.cache, h'.cache'⟩

theorem Alike.refl {s : Nat} {a b : St F S} (h : Alike tbl s a b) : Alike tbl s a a :=
  ⟨h.lt, h.lt, rfl, rfl, h.cache, h.cache⟩

section
variable (hP : H.Polite) (hH : HostR H (quiet tbl okFn okPl)) (hm : ∀ n, hasMinus (tbl n) = false)
include hP hH hm

/-- An argument has the same value wherever its scope looks the same, and evaluating it leaves the scope as it is. -/
theorem arg_same {s : Nat} {a : ArgV} (ha : ArgOk H tbl okFn okPl a) {st st' : St F S} (hl : Alike tbl s st st')
    (hc : ∀ v ∈ (st.scp s).vars, Tidy H (quiet tbl okFn okPl) v) {v : V F} {s1 : St F S} (h : ArgRuns H s a st v s1)
    (hv : SettledArg a v) : ∃ s1', ArgRuns H s a st' v s1' ∧ Alike tbl s st s1 ∧ Alike tbl s st s1' := by
  have hst := start_r hm hl.lt hl.lt' hl.vars hc hl.depth hl.cache hl.cache'
  have fin : ∀ {c : Call F} {x x' : c.Ret} {s1 s1' : St F S}, Runs H (call c) st x s1 → Runs H (call c) st' x' s1' →
      CacheOk tbl s1 → CacheOk tbl s1' → Alike tbl s st s1 ∧ Alike tbl s st s1' := by
    intro c x x' s1 s1' r r' k k'
    have f := r.call_frame hP
    have f' := r'.call_frame hP
    have g := r.grows.scopes
    have g' := r'.grows.scopes
    exact ⟨⟨hl.lt, Nat.lt_of_lt_of_le hl.lt g, f.vars s hl.lt, f.depth s hl.lt, hl.cache, k⟩,
      ⟨hl.lt, Nat.lt_of_lt_of_le hl.lt' g', (f'.vars s hl.lt').trans hl.vars, (f'.depth s hl.lt').trans hl.depth, hl.cache, k'⟩⟩
  cases a with
  | expr e =>
    have hdat : Data v := by
      rcases hv with hv | ⟨q, hq⟩
      · exact hv
      · cases hq
    obtain ⟨n, h'⟩ := h
    have hsim := sim_call (W := Corr.one s s) (.and e s) (.and e s)
      ((run_sim hH n).and (W := Corr.one s s) (refl_and e ha) (And.intro rfl rfl))
    obtain ⟨v', s1', W', h1, _, hst', hr⟩ := hsim st st' hst v s1 h'
    obtain rfl := data_eq hdat hr
    have k := fin (c := .and e s) ⟨n, h'⟩ ⟨n, h1⟩ (fun m p hp => (hst'.nd (n := m) ⟨rfl, rfl⟩).fn p hp)
      (fun m p hp => (hst'.nd (n := m) ⟨rfl, rfl⟩).fn' p hp)
    exact ⟨s1', ⟨n, h1⟩, k.1, k.2⟩
  | array c =>
    have hdat : Data v := by
      rcases hv with hv | ⟨q, hq⟩
      · exact hv
      · cases hq
    obtain ⟨n, h'⟩ := h
    have hsim := sim_call (W := Corr.one s s) (.comma c s) (.comma c s)
      ((run_sim hH n).comma (W := Corr.one s s) (refl_comma c ha) (And.intro rfl rfl))
    obtain ⟨v', s1', W', h1, _, hst', hr⟩ := hsim st st' hst v s1 h'
    obtain rfl := data_eq hdat hr
    have k := fin (c := .comma c s) ⟨n, h'⟩ ⟨n, h1⟩ (fun m p hp => (hst'.nd (n := m) ⟨rfl, rfl⟩).fn p hp)
      (fun m p hp => (hst'.nd (n := m) ⟨rfl, rfl⟩).fn' p hp)
    exact ⟨s1', ⟨n, h1⟩, k.1, k.2⟩
  | select q =>
    obtain ⟨rfl, rfl⟩ := h
    exact ⟨st', ⟨rfl, rfl⟩, hl.refl, hl⟩
  | empty =>
    obtain ⟨rfl, rfl⟩ := h
    exact ⟨st', ⟨rfl, rfl⟩, hl.refl, hl⟩

/-! ## Arguments -/

/-- What an argument is bound to is its value in the state before the call. -/
theorem args_alone {s : Nat} {st0 : St F S} (hc : ∀ v ∈ (st0.scp s).vars, Tidy H (quiet tbl okFn okPl) v)
    {acc out : OD (V F)} {params : List Arg} {st st' : St F S} (h : ArgsRun H s acc params st out st')
    (hl : Alike tbl s st0 st) (hok : ∀ n a, Arg.mk n a ∈ params → ArgOk H tbl okFn okPl a)
    (hnd : (params.map (fun p => match p with | .mk n _ => ident n)).Nodup)
    (hset : ∀ n a v, Arg.mk n a ∈ params → OD.get out (ident n) = some v → SettledArg a v) :
    (∀ n a, Arg.mk n a ∈ params → ∃ v s1, OD.get out (ident n) = some v ∧ ArgRuns H s a st0 v s1 ∧ SettledArg a v) ∧
    (∀ k, k ∉ params.map (fun p => match p with | .mk n _ => ident n) → OD.get out k = OD.get acc k) ∧
    Alike tbl s st0 st' := by
  induction h with
  | nil acc st => exact ⟨by simp, fun _ _ => rfl, hl⟩
  | @cons acc out n a l v st s1 s2 h1 h2 ih =>
    simp only [List.map_cons, List.nodup_cons] at hnd
    have hkeep : OD.get out (ident n) = some v ∨ True := .inr trivial
    have hl1 : (∀ k, k ∉ l.map (fun p => match p with | .mk n _ => ident n) →
        OD.get out k = OD.get (OD.set acc (ident n) v) k) := by
      clear ih hset hok hl h1 hkeep
      have hn := hnd.2
      clear hnd
      generalize OD.set acc (ident n) v = acc' at h2 ⊢
      induction h2 with
      | nil => exact fun _ _ => rfl
      | @cons acc out m a l v st s1 s2 _ _ ih =>
        intro k hk
        simp only [List.map_cons, List.mem_cons, not_or] at hk
        simp only [List.map_cons, List.nodup_cons] at hn
        rw [ih hn.2 k hk.2, OD.get_set_ne _ _ hk.1]
    have hv : OD.get out (ident n) = some v := by rw [hl1 _ hnd.1, OD.get_set_self]
    have hs := hset n a v (by simp) hv
    obtain ⟨s1', r, k1, k2⟩ := arg_same hP hH hm (hok n a (by simp)) hl.symm (by rw [hl.vars]; exact hc) h1 hs
    obtain ⟨i1, i2, i3⟩ := ih (hl.trans k1) (fun n a h => hok n a (by simp [h])) hnd.2
      (fun n a v h => hset n a v (by simp [h]))
    refine ⟨fun m b hm' => ?_, fun k hk => ?_, i3⟩
    · rcases List.mem_cons.1 hm' with e | hm'
      · cases e
        exact ⟨v, s1', hv, r, hs⟩
      · exact i1 m b hm'
    · simp only [List.map_cons, List.mem_cons, not_or] at hk
      rw [i2 k hk.2, OD.get_set_ne _ _ hk.1]

/-- Arguments that have values on their own can be evaluated one after the other. -/
theorem args_joint {s : Nat} {st0 : St F S} (hc : ∀ v ∈ (st0.scp s).vars, Tidy H (quiet tbl okFn okPl) v)
    (val : Str → V F) {params : List Arg} (hok : ∀ n a, Arg.mk n a ∈ params → ArgOk H tbl okFn okPl a)
    (hnd : (params.map (fun p => match p with | .mk n _ => ident n)).Nodup)
    (hval : ∀ n a, Arg.mk n a ∈ params → SettledArg a (val (ident n)) ∧ ∃ s1, ArgRuns H s a st0 (val (ident n)) s1)
    (acc : OD (V F)) {st : St F S} (hl : Alike tbl s st0 st) :
    ∃ out st', ArgsRun H s acc params st out st' ∧ Alike tbl s st0 st' ∧
      (∀ n a, Arg.mk n a ∈ params → OD.get out (ident n) = some (val (ident n))) ∧
      (∀ k, k ∉ params.map (fun p => match p with | .mk n _ => ident n) → OD.get out k = OD.get acc k) := by
  induction params generalizing acc st with
  | nil => exact ⟨acc, st, .nil _ _, hl, by simp, fun _ _ => rfl⟩
  | cons p l ih =>
    obtain ⟨n, a⟩ := p
    simp only [List.map_cons, List.nodup_cons] at hnd
    obtain ⟨hs, s1, h1⟩ := hval n a (by simp)
    obtain ⟨s1', r, k1, k2⟩ := arg_same hP hH hm (hok n a (by simp)) hl hc h1 hs
    obtain ⟨out, st', i1, i2, i3, i4⟩ := ih (fun n a h => hok n a (by simp [h])) hnd.2 (fun n a h => hval n a (by simp [h]))
      (OD.set acc (ident n) (val (ident n))) k2
    refine ⟨out, st', .cons r i1, i2, fun m b hm' => ?_, fun k hk => ?_⟩
    · rcases List.mem_cons.1 hm' with e | hm'
      · cases e
        rw [i4 _ hnd.1, OD.get_set_self]
      · exact i3 m b hm'
    · simp only [List.map_cons, List.mem_cons, not_or] at hk
      rw [i4 k hk.2, OD.get_set_ne _ _ hk.1]

/-! ## Defaults -/

theorem defaults_alone {s : Nat} {st0 : St F S} (hc : ∀ v ∈ (st0.scp s).vars, Tidy H (quiet tbl okFn okPl) v)
    {acc out : OD (V F)} {ds : List (Str × Arg)} {st st' : St F S} (h : DefaultsRun H s acc ds st out st')
    (hl : Alike tbl s st0 st) (hok : ∀ k n a, (k, Arg.mk n a) ∈ ds → ArgOk H tbl okFn okPl a)
    (hnd : (ds.map Prod.fst).Nodup)
    (hset : ∀ k n a v, (k, Arg.mk n a) ∈ ds → OD.get acc k = none → OD.get out k = some v → SettledArg a v) :
    (∀ k n a, (k, Arg.mk n a) ∈ ds → OD.get acc k = none →
      ∃ v s1, OD.get out k = some v ∧ ArgRuns H s a st0 v s1 ∧ SettledArg a v) ∧ Alike tbl s st0 st' := by
  induction h with
  | nil acc st => exact ⟨by simp, hl⟩
  | @given acc out d l st s2 v hg h ih =>
    simp only [List.map_cons, List.nodup_cons] at hnd
    obtain ⟨i1, i2⟩ := ih hl (fun k n a h => hok k n a (by simp [h])) hnd.2 (fun k n a v h => hset k n a v (by simp [h]))
    refine ⟨fun k n a hm' hn => ?_, i2⟩
    rcases List.mem_cons.1 hm' with e | hm'
    · rw [← e] at hg
      simp only at hg
      rw [hg] at hn; cases hn
    · exact i1 k n a hm' hn
  | @missing acc out k n a l v st s1 s2 hn ha h ih =>
    simp only [List.map_cons, List.nodup_cons] at hnd
    have hv : OD.get out k = some v := (C34_defaults h).1 k v (OD.get_set_self _ _ _)
    have hs := hset k n a v (by simp) hn hv
    obtain ⟨s1', r, k1, _⟩ := arg_same hP hH hm (hok k n a (by simp)) hl.symm (by rw [hl.vars]; exact hc) ha hs
    have ne : ∀ {k' n' a'}, (k', Arg.mk n' a') ∈ l → k' ≠ k := by
      rintro k' n' a' hm' rfl
      exact hnd.1 (List.mem_map.2 ⟨_, hm', rfl⟩)
    obtain ⟨i1, i2⟩ := ih (hl.trans k1) (fun k n a h => hok k n a (by simp [h])) hnd.2
      (fun k' n' a' v' hm' hn' => hset k' n' a' v' (by simp [hm']) (by rwa [OD.get_set_ne _ _ (ne hm')] at hn'))
    refine ⟨fun k' n' a' hm' hn' => ?_, i2⟩
    rcases List.mem_cons.1 hm' with e | hm'
    · cases e
      exact ⟨v, s1', hv, r, hs⟩
    · exact i1 k' n' a' hm' (by rwa [OD.get_set_ne _ _ (ne hm')])

theorem defaults_joint {s : Nat} {st0 : St F S} (hc : ∀ v ∈ (st0.scp s).vars, Tidy H (quiet tbl okFn okPl) v)
    (val : Str → V F) {ds : List (Str × Arg)} (hok : ∀ k n a, (k, Arg.mk n a) ∈ ds → ArgOk H tbl okFn okPl a)
    (hnd : (ds.map Prod.fst).Nodup) (acc : OD (V F))
    (hval : ∀ k n a, (k, Arg.mk n a) ∈ ds → OD.get acc k = none →
      SettledArg a (val k) ∧ ∃ s1, ArgRuns H s a st0 (val k) s1)
    {st : St F S} (hl : Alike tbl s st0 st) :
    ∃ out st', DefaultsRun H s acc ds st out st' ∧ Alike tbl s st0 st' ∧
      (∀ k n a, (k, Arg.mk n a) ∈ ds → OD.get acc k = none → OD.get out k = some (val k)) := by
  induction ds generalizing acc st with
  | nil => exact ⟨acc, st, .nil _ _, hl, by simp⟩
  | cons d l ih =>
    obtain ⟨k, n, a⟩ := d
    simp only [List.map_cons, List.nodup_cons] at hnd
    have ne : ∀ {k' n' a'}, (k', Arg.mk n' a') ∈ l → k' ≠ k := by
      rintro k' n' a' hm' rfl
      exact hnd.1 (List.mem_map.2 ⟨_, hm', rfl⟩)
    cases hg : OD.get acc k with
    | some v =>
      obtain ⟨out, st', i1, i2, i3⟩ := ih (fun k n a h => hok k n a (by simp [h])) hnd.2 acc
        (fun k n a h => hval k n a (by simp [h])) hl
      refine ⟨out, st', .given hg i1, i2, fun k' n' a' hm' hn => ?_⟩
      rcases List.mem_cons.1 hm' with e | hm'
      · cases e
        rw [hg] at hn; cases hn
      · exact i3 k' n' a' hm' hn
    | none =>
      obtain ⟨hs, s1, h1⟩ := hval k n a (by simp) hg
      obtain ⟨s1', r, _, k2⟩ := arg_same hP hH hm (hok k n a (by simp)) hl hc h1 hs
      obtain ⟨out, st', i1, i2, i3⟩ := ih (fun k n a h => hok k n a (by simp [h])) hnd.2 (OD.set acc k (val k))
        (fun k' n' a' hm' hn' => hval k' n' a' (by simp [hm']) (by rwa [OD.get_set_ne _ _ (ne hm')] at hn')) k2
      refine ⟨out, st', .missing hg r i1, i2, fun k' n' a' hm' hn => ?_⟩
      rcases List.mem_cons.1 hm' with e | hm'
      · cases e
        exact (C34_defaults i1).1 k _ (OD.get_set_self _ _ _)
      · exact i3 k' n' a' hm' (by rwa [OD.get_set_ne _ _ (ne hm')])

/-- **C92, arguments in another order** (no aggregates, no negated names, values that are data): arguments with different
names can be written in any order; each parameter is bound to the same value. -/
theorem C92_args_partial {s : Nat} {st st' : St F S} (hs : s < st.scopes.length) (hf : CacheOk tbl st)
    (hc : ∀ v ∈ (st.scp s).vars, Tidy H (quiet tbl okFn okPl) v) {params params' : List Arg}
    (hp : params'.Perm params) (hok : ∀ n a, Arg.mk n a ∈ params → ArgOk H tbl okFn okPl a)
    (hnd : (params.map (fun p => match p with | .mk n _ => ident n)).Nodup) {out : OD (V F)}
    (h : Runs H (buildArgsP s params) st out st')
    (hset : ∀ n a v, Arg.mk n a ∈ params → OD.get out (ident n) = some v → SettledArg a v) :
    ∃ out' st'', Runs H (buildArgsP s params') st out' st'' ∧ ∀ k, OD.get out' k = OD.get out k := by
  have hl : Alike tbl s st st := ⟨hs, hs, rfl, rfl, hf, hf⟩
  obtain ⟨a1, a2, _⟩ := args_alone hP hH hm hc (runs_buildArgs.1 h) hl hok hnd hset
  obtain ⟨out', st'', b1, _, b3, b4⟩ := args_joint hP hH hm hc (fun k => (OD.get out k).getD .null) (params := params')
    (fun n a hm' => hok n a (hp.mem_iff.1 hm')) ((hp.map _).nodup_iff.2 hnd)
    (fun n a hm' => by
      obtain ⟨v, s1, e, r, q⟩ := a1 n a (hp.mem_iff.1 hm')
      rw [e]; exact ⟨q, s1, r⟩) [] hl
  refine ⟨out', st'', runs_buildArgs.2 b1, fun k => ?_⟩
  by_cases hk : k ∈ params.map (fun p => match p with | .mk n _ => ident n)
  · obtain ⟨⟨n, a⟩, hmem, rfl⟩ := List.mem_map.1 hk
    obtain ⟨v, s1, e, _⟩ := a1 n a hmem
    have := b3 n a (hp.mem_iff.2 hmem)
    simp only at e this ⊢
    rw [this, e]; rfl
  · rw [a2 k hk, b4 k (fun h => hk ((hp.map _).mem_iff.1 h))]

/-- **C92, defaults in another order** (no aggregates, no negated names, values that are data): whichever order the
defaults are evaluated in, each parameter is bound to the same value. -/
theorem C92_defaults_partial {s : Nat} {st st' : St F S} (hs : s < st.scopes.length) (hf : CacheOk tbl st)
    (hc : ∀ v ∈ (st.scp s).vars, Tidy H (quiet tbl okFn okPl) v) {ds ds' : List (Str × Arg)} (hp : ds'.Perm ds)
    (hq : Spelled ds) (hok : ∀ k n a, (k, Arg.mk n a) ∈ ds → ArgOk H tbl okFn okPl a) (hnd : (ds.map Prod.fst).Nodup)
    {args out : OD (V F)} (h : Runs H (applyDefaultsP s ds args) st out st')
    (hset : ∀ k n a v, (k, Arg.mk n a) ∈ ds → OD.get args k = none → OD.get out k = some v → SettledArg a v) :
    ∃ out' st'', Runs H (applyDefaultsP s ds' args) st out' st'' ∧ ∀ k, OD.get out' k = OD.get out k := by
  have hl : Alike tbl s st st := ⟨hs, hs, rfl, rfl, hf, hf⟩
  have hd := (runs_applyDefaults hq).1 h
  obtain ⟨a1, _⟩ := defaults_alone hP hH hm hc hd hl hok hnd hset
  obtain ⟨out', st'', b1, _, b3⟩ := defaults_joint hP hH hm hc (fun k => (OD.get out k).getD .null) (ds := ds')
    (fun k n a hm' => hok k n a (hp.mem_iff.1 hm')) ((hp.map _).nodup_iff.2 hnd) args
    (fun k n a hm' hn => by
      obtain ⟨v, s1, e, r, q⟩ := a1 k n a (hp.mem_iff.1 hm') hn
      rw [e]; exact ⟨q, s1, r⟩) hl
  refine ⟨out', st'', (runs_applyDefaults (fun k n q h => hq k n q (hp.mem_iff.1 h))).2 b1, fun k => ?_⟩
  have c := C34_defaults hd
  have c' := C34_defaults b1
  cases hg : OD.get args k with
  | some v => rw [c.1 k v hg, c'.1 k v hg]
  | none =>
    by_cases hk : ∃ n a, (k, Arg.mk n a) ∈ ds
    · obtain ⟨n, a, hmem⟩ := hk
      obtain ⟨v, s1, e, _⟩ := a1 k n a hmem hg
      rw [b3 k n a (hp.mem_iff.2 hmem) hg, e]; rfl
    · have hne : ∀ d ∈ ds, d.1 ≠ k := by
        rintro ⟨k', n, a⟩ hmem rfl
        exact hk ⟨n, a, hmem⟩
      rw [c.2.2 k hg hne, c'.2.2 k hg (fun d h => hne d (hp.mem_iff.1 h))]

end
end

/-! ## Examples -/

/-- `LET f(a, b=x) = a + b`: with `x` bound to 5, the arguments `b=x, a=7` in either order. -/
example : ∀ ps ∈ [[("b", AndE.val (.name 5 "x")), ("a", .val (.int "7"))], [("a", AndE.val (.int "7")), ("b", .val (.name 5 "x"))]],
    givesAll demoSrc [(bs "x", .int 5#64)] [
      .let_ (bs "f") true [⟨bs "a", none⟩, ⟨bs "b", some (.expr (.val (.name 0 "x")))⟩] false
        (.expr (.plus (.name 1 "a") (.name 2 "b"))),
      .query (.one (.val (.fcall 3 "f" ps)) "y" (.src "scope"))] [[], [.dict [(bs "y", .int 12#64)]]] = true := by
  decide +kernel

/-- The premises can be met by defaults that read variables. -/
example : let us : List Use := usesArgV (.expr (.val (.name 0 "x"))) ++ usesArgV (.array (.mk (.val (.name 1 "y")) []))
    tame us = true := by
  decide +kernel

/-- `LET g = count()  LET f(a, b) = a  SELECT f(..) AS x FROM scope()`. -/
def orderProg (ps : List (String × AndE)) : List Stmt := [
    .letE "g" false (.val (.fcall 0 "count" [])),
    .let_ (bs "f") true [⟨bs "a", none⟩, ⟨bs "b", none⟩] false (.expr (.val (.name 1 "a"))),
    .query (.one (.val (.fcall 2 "f" ps)) "x" (.src "scope"))]

/-- **C92, refuted for arguments that count**: `f(a=g, b=g)` gives 1 and `f(b=g, a=g)` gives 2. -/
theorem C92_args_refuted :
    givesAll demoSrc [] (orderProg [("a", .val (.name 3 "g")), ("b", .val (.name 4 "g"))])
      [[], [], [.dict [(bs "x", .int 1#64)]]] = true ∧
    givesAll demoSrc [] (orderProg [("b", .val (.name 4 "g")), ("a", .val (.name 3 "g"))])
      [[], [], [.dict [(bs "x", .int 2#64)]]] = true := by
  constructor <;> decide +kernel

/-- What the parameter `a` is bound to by these defaults, after `LET g = count()`. -/
def defaultA (ds : List (Str × Arg)) : Option (V F64) :=
  match runStmts (demo demoSrc) 60 [.letE "g" false (.val (.fcall 0 "count" []))] 0 (St.init []) with
  | none => none
  | some (_, st) => match exec (demo demoSrc) 60 (applyDefaultsP 0 ds []) st with
    | none => none
    | some (out, _) => OD.get out (bs "a")

/-- The defaults of `LET f(a=g, b=g) = ..`. -/
def twoDefaults : List (Str × Arg) :=
  [(bs "a", .mk (bs "a") (.expr (.val (.name 3 "g")))), (bs "b", .mk (bs "b") (.expr (.val (.name 4 "g"))))]

/-- **C92, refuted for defaults that count**: after `LET g = count()` a call `f()` of `LET f(a=g, b=g) = a` binds `a` to 1 or
to 2, depending on the order in which Go visits the defaults. -/
theorem C92_defaults_refuted : ∃ (st s1 s2 : St F64 Unit) (out out' : OD (V F64)), twoDefaults.reverse.Perm twoDefaults ∧
    Runs (demo demoSrc) (applyDefaultsP 0 twoDefaults []) st out s1 ∧
    Runs (demo demoSrc) (applyDefaultsP 0 twoDefaults.reverse []) st out' s2 ∧
    OD.get out (bs "a") = some (.int 1#64) ∧ OD.get out' (bs "a") = some (.int 2#64) := by
  have h1 : (match defaultA twoDefaults with | some v => sameV v (.int 1#64) | none => false) = true := by decide +kernel
  have h2 : (match defaultA twoDefaults.reverse with | some v => sameV v (.int 2#64) | none => false) = true := by
    decide +kernel
  unfold defaultA at h1 h2
  cases hr : runStmts (demo demoSrc) 60 [.letE "g" false (.val (.fcall 0 "count" []))] 0 (St.init []) with
  | none => rw [hr] at h1; simp at h1
  | some x =>
    obtain ⟨rows, st⟩ := x
    rw [hr] at h1 h2
    simp only at h1 h2
    cases e1 : exec (demo demoSrc) 60 (applyDefaultsP 0 twoDefaults []) st with
    | none => rw [e1] at h1; simp at h1
    | some y =>
      cases e2 : exec (demo demoSrc) 60 (applyDefaultsP 0 twoDefaults.reverse []) st with
      | none => rw [e2] at h2; simp at h2
      | some z =>
        obtain ⟨out, s1⟩ := y
        obtain ⟨out', s2⟩ := z
        rw [e1] at h1
        rw [e2] at h2
        simp only at h1 h2
        refine ⟨st, s1, s2, out, out', List.reverse_perm _, ⟨60, e1⟩, ⟨60, e2⟩, ?_, ?_⟩
        · cases hg : OD.get out (bs "a") with
          | none => rw [hg] at h1; simp at h1
          | some v => rw [hg] at h1; rw [sameV_eq _ _ h1]
        · cases hg : OD.get out' (bs "a") with
          | none => rw [hg] at h2; simp at h2
          | some v => rw [hg] at h2; rw [sameV_eq _ _ h2]

end Vfilter.Vql
