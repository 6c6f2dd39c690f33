import Verif.Checkpoint
import Verif.RoundDec
/-!
# C24: checkpoints of a scope
-/
set_option linter.all false

namespace Vfilter.Vql
open Ckpt Fmt

section
variable {F S J : Type}

/-- The value can be written and read back.  A definition must be stored under its own name, and
names, parameters and body must be readable again (C49); a plain value must be restored by JSON,
and NULL is not. -/
def Keeps (C : Codec F J) (k : Str) : V F → Prop
  | .obj (.sexpr e) => e.name = k ∧ Quotable k ∧ (∀ p ∈ e.params, PlainParam p) ∧
      wAnd id limitVal (upAnd e.body) ∧ kAnd numberText (upAnd e.body)
  | .obj (.squery q) => q.name = k ∧ Quotable k ∧ (∀ p ∈ q.params, PlainParam p) ∧
      wSelect id limitVal (upSelect q.query) ∧ kSelect numberText (upSelect q.query)
  | .dict d => ∃ j, C.enc (.dict d) = some j ∧ C.decDict j = some (.dict d)
  | v => v ≠ .null ∧ ∃ j, C.enc v = some j ∧ C.dec j = some v

/-- The restored value: the same, and for a definition the same name, parameters and body (with
numbers in printed form, which denote the same numbers, `C49_number`) but no defaults. -/
def SameVar : V F → V F → Prop
  | .obj (.sexpr e), w => ∃ b, w = .obj (.sexpr ⟨e.name, e.params, [], b⟩) ∧
      upAnd b = mAnd numberText (upAnd e.body)
  | .obj (.squery q), w => ∃ b, w = .obj (.squery ⟨q.name, q.params, [], b⟩) ∧
      upSelect b = mSelect numberText (upSelect q.query)
  | v, w => w = v

theorem low_names : ∀ (ps : List Str) (n : Nat), lowParams (ps.map .name) n = (ps.map (fun p => ⟨p, none⟩), n)
  | [], _ => rfl
  | p :: ps, n => by simp only [List.map_cons, lowParams, lowParam, low_names ps n]

theorem letParams_names (ps : List Str) (h : ∀ p ∈ ps, PlainParam p) :
    letParams (ps.map (fun p => ⟨p, none⟩)) = (ps, []) := by
  unfold letParams
  congr 1
  · rw [List.map_map]
    exact (List.map_congr_left (fun p hp => (h p hp).2)).trans (List.map_id _)
  · rw [List.foldl_map]
    induction ps with
    | nil => rfl
    | cons p ps ih => exact ih (fun p hp => h p (by simp [hp]))

theorem obj_expr {name : Str} {params : List Str} {e : CAnd} (hn : Quotable name)
    (hp : ∀ p ∈ params, PlainParam p) (n : Nat) :
    (objOf (lowStmt (defStmt numberText name params (.expr e)) n).1 : V F) =
      .obj (.sexpr ⟨name, params, [], (lowAnd (mAnd numberText e) n).1⟩) := by
  simp only [defStmt, mBody, lowStmt, low_names, objOf, letParams_names params hp, hn.2]

theorem obj_select {name : Str} {params : List Str} {q : CSelect} (hn : Quotable name)
    (hp : ∀ p ∈ params, PlainParam p) (n : Nat) :
    (objOf (lowStmt (defStmt numberText name params (.select q)) n).1 : V F) =
      .obj (.squery ⟨name, params, [], (lowSelect (mSelect numberText q) n).1⟩) := by
  simp only [defStmt, mBody, lowStmt, low_names, objOf, letParams_names params hp, hn.2]

theorem defines_def {name : Str} {params : List Str} {b : CLetBody} (hn : Quotable name)
    (hp : ∀ p ∈ params, PlainParam p) (hw : wBody id limitVal b) (hk : kBody numberText b) :
    Defines limitVal name (defText name params (fmtBody numberText b)) (defStmt numberText name params b) :=
  ⟨parse_defText numberText limitVal hn hp hw hk, [], quoteName name, _, _, _, rfl, hn.2⟩

theorem defines_unique {lim : Str → Option Int} {k k' text : Str} {t t' : CStmt} (h : Defines lim k text t)
    (h' : Defines lim k' text t') : t = t' := by
  have := h.1
  rw [h'.1] at this
  exact (Option.some.inj this).symm

/-- What is written for a value that can be kept. -/
theorem keeps_item {C : Codec F J} {k : Str} {v : V F} (h : Keeps C k v) :
    ∃ i, marshalValue numberText C v = some i ∧ GoodItem limitVal (k, i) ∧
      ∀ env reps, Said limitVal C env reps k (some i) →
        ∃ w, SameVar v w ∧ (OD.get env k).or (lookup reps k) = some w := by
  have plain : ∀ (v : V F) (i : MItem J), marshalValue numberText C v = some i → plainItem C i = some v →
      (∀ w, w = v → SameVar v w) → (∀ t, i ≠ .replay t) →
      ∃ i, marshalValue numberText C v = some i ∧ GoodItem limitVal (k, i) ∧
      ∀ env reps, Said limitVal C env reps k (some i) →
        ∃ w, SameVar v w ∧ (OD.get env k).or (lookup reps k) = some w := by
    intro v i h1 h2 h3 h4
    refine ⟨i, h1, ?_, ?_⟩
    · cases i with
      | replay t => exact absurd rfl (h4 t)
      | _ => trivial
    · intro env reps hs
      have : OD.get env k = plainItem C i := by
        cases i with
        | replay t => exact absurd rfl (h4 t)
        | dict j => exact hs.1
        | json j => exact hs.1
      exact ⟨v, h3 v rfl, by rw [this, h2]; rfl⟩
  have json : ∀ (v : V F), marshalValue numberText C v = (C.enc v).map .json → (∀ w, w = v → SameVar v w) →
      (v ≠ .null ∧ ∃ j, C.enc v = some j ∧ C.dec j = some v) →
      ∃ i, marshalValue numberText C v = some i ∧ GoodItem limitVal (k, i) ∧
      ∀ env reps, Said limitVal C env reps k (some i) →
        ∃ w, SameVar v w ∧ (OD.get env k).or (lookup reps k) = some w := by
    rintro v h1 h2 ⟨hn, j, h3, h4⟩
    refine plain v (.json j) (by rw [h1, h3]; rfl) ?_ h2 (by intro t; simp)
    simp only [plainItem, h4, kept]
    rw [if_neg]
    cases v <;> simp [Val.isNil] at hn ⊢
  cases v with
  | dict d =>
    obtain ⟨j, h1, h2⟩ := h
    refine plain _ (.dict j) (by simp [marshalValue, h1]) ?_ (fun w hw => hw) (by intro t; simp)
    simp [plainItem, h2, kept, Val.isNil]
  | obj x =>
    cases x with
    | sexpr e =>
      obtain ⟨rfl, h1, h2, h3, h4⟩ := h
      have hd := defines_def h1 h2 (b := .expr (upAnd e.body)) h3 h4
      refine ⟨_, rfl, ⟨_, hd⟩, ?_⟩
      rintro env reps ⟨g1, t, n, g2, g3⟩
      have := defines_unique g2 hd
      subst this
      rw [obj_expr h1 h2] at g3
      refine ⟨_, ⟨_, rfl, ?_⟩, by rw [g1, g3]; rfl⟩
      exact u_and numberText limitVal limFits_limitVal _ _ (y_and numberText limitVal _ h3 h4)
    | squery q =>
      obtain ⟨rfl, h1, h2, h3, h4⟩ := h
      have hd := defines_def h1 h2 (b := .select (upSelect q.query)) h3 h4
      refine ⟨_, rfl, ⟨_, hd⟩, ?_⟩
      rintro env reps ⟨g1, t, n, g2, g3⟩
      have := defines_unique g2 hd
      subst this
      rw [obj_select h1 h2] at g3
      refine ⟨_, ⟨_, rfl, ?_⟩, by rw [g1, g3]; rfl⟩
      exact u_select numberText limitVal limFits_limitVal _ _ (y_select numberText limitVal _ h3 h4)
    | _ => exact json _ rfl (fun w hw => hw) h
  | _ => exact json _ rfl (fun w hw => hw) h

variable [FloatOps F] {H : Host F S}

/-- The names that the property excludes. -/
def Excluded (k : Str) : Prop :=
  (∃ r, k = bs "$" ++ r) ∨ k = bs "NULL" ∨ k = bs "config" ∨ k = bs "Artifact"

/-- **C24** Exactly the excluded names are not written. -/
theorem C24_excluded (k : Str) : skipped k = true ↔ Excluded k := by
  unfold skipped Excluded
  simp only [Bool.or_eq_true, beq_iff_eq, or_assoc]
  refine or_congr ?_ Iff.rfl
  cases k with
  | nil => exact ⟨fun h => absurd h (by decide), fun ⟨r, h⟩ => absurd h (by simp [show bs "$" = [36] from rfl])⟩
  | cons c k =>
    show ([c] = [36]) ↔ ∃ r, c :: k = [36] ++ r
    constructor
    · intro h
      cases h
      exact ⟨k, rfl⟩
    · rintro ⟨r, h⟩
      simp only [List.singleton_append, List.cons.injEq] at h
      rw [h.1]

example : Excluded (bs "$Query") ∧ ¬ Excluded (bs "Query") := by
  refine ⟨.inl ⟨bs "Query", rfl⟩, fun h => ?_⟩
  rw [← C24_excluded] at h
  exact absurd h (by decide)

/-- **C24** A checkpoint of a scope restores its variables.  The scope consists of dictionaries, as
the application and LET make them, and the value every name resolves to can be kept.  Whatever
order the items are read in, and whatever the state and the scope they are read into: a new scope
is made, a copy of that scope with one more layer of variables `new`; a name that was written and is
not ignored refers to its value in `new`; `new` has no other names; nothing else changes. -/
theorem C24_checkpoint_partial (C : Codec F J) {s : Nat} {st : St F S} {ds : List (OD (V F))}
    (hd : (st.scp s).depth < 1000) (hv : (st.scp s).vars = ds.map .dict)
    (hk : ∀ d ∈ ds, ∀ k ∈ OD.keys d, PlainKey k)
    (hok : ∀ k v, skipped k = false → lookup ds k = some v → Keeps C k v) :
    ∃ items, Runs H (marshalP numberText C s) st (some items) st ∧
      ∀ (l : List (Str × MItem J)), l.Perm items → ∀ (ign : List Str) (t node : Nat) (st2 : St F S),
      ∃ new, Runs H (unmarshalP H limitVal C ign l t node) st2 st2.scopes.length (st2.push t (new.map .dict)) ∧
        ∀ k, (∀ v, skipped k = false → ign.contains k = false → lookup ds k = some v →
            ∃ w, SameVar v w ∧ lookup new k = some w) ∧
          (skipped k = true ∨ ign.contains k = true ∨ lookup ds k = none → lookup new k = none) := by
  obtain ⟨items, h1, h2, h3⟩ := marshal_runs (H := H) (num := numberText) (C := C) hd hv hk
    (fun k v hs hl => by
      obtain ⟨i, hi, _⟩ := keeps_item (hok k v hs hl)
      rw [hi]; rfl)
  refine ⟨items, h1, ?_⟩
  intro l hl ign t node st2
  have hnd : (l.map (·.1)).Nodup := (hl.map (fun p : Str × MItem J => p.1)).nodup_iff.2 h2
  have hget : ∀ k, OD.get l k = OD.get items k := by
    intro k
    cases hg : OD.get items k with
    | some i => exact OD.get_of_mem (d := l) hnd (hl.mem_iff.2 (OD.mem_of_get hg))
    | none =>
      cases hg' : OD.get l k with
      | none => rfl
      | some i =>
        have := OD.get_of_mem h2 (hl.mem_iff.1 (OD.mem_of_get hg'))
        rw [hg] at this; cases this
  have hitem : ∀ k i, OD.get l k = some i → ∃ v, skipped k = false ∧ lookup ds k = some v ∧
      marshalValue numberText C v = some i := by
    intro k i hi
    rw [hget, h3] at hi
    split at hi
    · cases hi
    · rename_i hs
      obtain ⟨v, hv1, hv2⟩ := Option.bind_eq_some_iff.1 hi
      exact ⟨v, by simpa using hs, hv1, hv2⟩
  have hgood : ∀ p ∈ l, GoodItem limitVal p := by
    rintro ⟨k, i⟩ hp
    obtain ⟨v, hs, hlk, hm⟩ := hitem k i (OD.get_of_mem (d := l) hnd hp)
    obtain ⟨i', hi', hg, _⟩ := keeps_item (hok k v hs hlk)
    rw [hm] at hi'
    cases hi'
    exact hg
  obtain ⟨env, reps, hrun, hsaid⟩ := unmarshal_runs (H := H) limitVal C ign t node st2 l hgood hnd
  refine ⟨reps ++ [env], hrun, ?_⟩
  intro k
  have hsk := hsaid k
  rw [lookup_append, lookup_singleton]
  constructor
  · intro v hs hi hlk
    obtain ⟨i, hm, _, hw⟩ := keeps_item (hok k v hs hlk)
    have : itemFor ign l k = some i := by
      simp only [itemFor, hi, hget, h3, hs, hlk]
      simpa using hm
    rw [this] at hsk
    exact hw env reps hsk
  · intro h
    have : itemFor ign l k = none := by
      unfold itemFor
      split
      · rfl
      · rename_i hi
        rw [hget, h3]
        rcases h with h | h | h
        · simp [h]
        · exact absurd h hi
        · simp [h]
    rw [this] at hsk
    rw [hsk.1, hsk.2]; rfl

/-- The same for `Resolve`: a name that was written resolves in the new scope to its value, whatever
the scope it was read into held under that name. -/
theorem C24_resolve_partial (C : Codec F J) {s : Nat} {st : St F S} {ds es : List (OD (V F))}
    (hd : (st.scp s).depth < 1000) (hv : (st.scp s).vars = ds.map .dict)
    (hk : ∀ d ∈ ds, ∀ k ∈ OD.keys d, PlainKey k)
    (hok : ∀ k v, skipped k = false → lookup ds k = some v → Keeps C k v) :
    ∃ items, Runs H (marshalP numberText C s) st (some items) st ∧
      ∀ (l : List (Str × MItem J)), l.Perm items → ∀ (ign : List Str) (t node : Nat) (st2 : St F S),
      (st2.scp t).depth + 1 < 1000 → (st2.scp t).vars = es.map .dict →
      ∃ ns st3, Runs H (unmarshalP H limitVal C ign l t node) st2 ns st3 ∧
        (∀ i, i < st2.scopes.length → st3.scp i = st2.scp i) ∧
        ∀ k, PlainKey k →
          (∀ v, skipped k = false → ign.contains k = false → Runs H (call (.resolve s k)) st (some v, true) st →
            ∃ w, SameVar v w ∧ Runs H (call (.resolve ns k)) st3 (some w, true) st3) ∧
          (skipped k = true ∨ ign.contains k = true ∨ Runs H (call (.resolve s k)) st (none, false) st →
            ∀ r, Runs H (call (.resolve ns k)) st3 r st3 ↔ Runs H (call (.resolve t k)) st2 r st2) := by
  obtain ⟨items, h1, h2⟩ := C24_checkpoint_partial (H := H) C hd hv hk hok
  refine ⟨items, h1, ?_⟩
  intro l hl ign t node st2 hd2 hv2
  obtain ⟨new, h3, h4⟩ := h2 l hl ign t node st2
  refine ⟨_, _, h3, fun i hi => push_scp_lt _ _ _ hi, ?_⟩
  intro k hkp
  have hvars : ((st2.push t (new.map .dict)).scp st2.scopes.length).vars = (es ++ new).map .dict := by
    rw [push_scp]; simp [hv2]
  have hdep : ((st2.push t (new.map .dict)).scp st2.scopes.length).depth < 1000 := by
    rw [push_scp]; exact hd2
  obtain ⟨h5, h6⟩ := h4 k
  constructor
  · intro v hs hi hr
    rw [resolve_dicts hkp hd hv] at hr
    simp only [Prod.mk.injEq] at hr
    obtain ⟨w, hw, hl⟩ := h5 v hs hi hr.1.1.symm
    refine ⟨w, hw, (resolve_dicts hkp hdep hvars).2 ⟨?_, rfl⟩⟩
    rw [lookup_append, hl]; rfl
  · intro h r
    have hn : lookup new k = none := h6 (by
      rcases h with h | h | h
      · exact .inl h
      · exact .inr (.inl h)
      · rw [resolve_dicts hkp hd hv] at h
        simp only [Prod.mk.injEq] at h
        exact .inr (.inr h.1.1.symm))
    rw [resolve_dicts hkp hdep hvars, resolve_dicts hkp (by omega) hv2, lookup_append, hn]
    simp

/-! ## What can be kept -/

theorem encode_ascii : ∀ c : UInt8, c.toNat < 0x80 → encodeRune c.toNat = [c] :=
  forall_byte (by decide +kernel)

theorem unquote_ascii : ∀ (k out : Str), (∀ c ∈ k, c.toNat < 0x80 ∧ c ≠ 92) → unquoteIdentLoop k out = out ++ k
  | [], out, _ => by rw [unquoteIdentLoop]; simp
  | c :: k, out, h => by
    obtain ⟨h1, h2⟩ := h c (by simp)
    have hu : unquoteChar (c :: k) = some (c.toNat, k) := by
      unfold unquoteChar
      simp only
      rw [if_neg (by omega), if_pos (by simpa using h2)]
    rw [unquoteIdentLoop]
    split
    · rename_i he; rw [hu] at he; cases he
    · rename_i v tail he
      rw [hu] at he
      cases he
      rw [unquote_ascii k _ (fun c hc => h c (by simp [hc])), encode_ascii c h1]
      simp

/-- Names of ASCII characters other than backquote and backslash can be written in backquotes. -/
theorem C24_quotable (k : Str) (hne : k ≠ []) (h : ∀ c ∈ k, c.toNat < 0x80 ∧ c ≠ 92 ∧ c ≠ 96) : Quotable k := by
  constructor
  · have h0 : firstRule (rules.take 23) (96 :: k ++ [96] ++ []) = none := rfl
    have := bt_fol (r := []) hne (fun d hd => (h d hd).2.2)
    rw [List.append_nil] at h0 this
    unfold IsTok quoteName
    rw [rules_split 23, first_append, h0]
    show firstRule ((.ident, identifier) :: rules.drop 24) _ = _
    simp only [firstRule, this]
  · have hs : goSlice (quoteName k) 1 ((quoteName k).length - 1) = some k := by
      unfold goSlice quoteName
      rw [if_pos (by simp; omega)]
      simp
    unfold ident unquoteIdent
    show (if (96 : UInt8) ≠ chBT then _ else _ : Option Str).getD [] = k
    rw [if_neg (by decide)]
    show ((goSlice (quoteName k) 1 ((quoteName k).length - 1)).map _).getD [] = k
    rw [hs]
    simp only [Option.map_some, Option.getD_some]
    exact unquote_ascii k [] (fun c hc => ⟨(h c hc).1, (h c hc).2.1⟩)

theorem low_param_names : ∀ (ps : List CLetParam) (n : Nat),
    (letParams (lowParams ps n).1).1 = ps.map paramName
  | [], _ => rfl
  | .name p :: ps, n => by
    have := low_param_names ps n
    simp only [letParams] at this
    simp only [letParams, lowParams, lowParam, List.map_cons, this]
    rfl
  | .dflt (.mk cs p v) :: ps, n => by
    have := low_param_names ps (lowArgV v n).2
    simp only [letParams] at this
    simp only [letParams, lowParams, lowParam, List.map_cons, this]
    rfl

/-- **C24** What a LET statement defines can be kept: it was parsed, it is printed as itself (the
condition of C49), its name can be written in backquotes and its parameters need none. -/
theorem C24_let_kept (C : Codec F J) {text : Str} {cs : List Comment} {nm : Str} {called : Bool} {ps : List CLetParam}
    {b : CLetBody} (h : parse limitVal text = some (.let_ cs nm called ps (bs "=") b))
    (hk : kStmt numberText (.let_ cs nm called ps (bs "=") b)) (hn : Quotable (ident nm))
    (hp : ∀ p ∈ ps, PlainParam (paramName p)) (s node : Nat) (st : St F S) :
    ∃ v, Runs H (stmtP H (lowStmt (.let_ cs nm called ps (bs "=") b) node).1 s) st []
        (st.appendVar s (.dict [(ident nm, v)])) ∧ Keeps C (ident nm) v := by
  have hw := parse_wf numberText limitVal limOK_limitVal h hk
  obtain ⟨_, _, _, _, _, hb⟩ := hw
  obtain ⟨_, _, _, kb⟩ := hk
  have hps : ∀ p ∈ (letParams (lowParams ps node).1).1, PlainParam p := by
    rw [low_param_names]
    intro p hp'
    obtain ⟨q, hq, rfl⟩ := List.mem_map.1 hp'
    exact hp q hq
  refine ⟨objOf (lowStmt (.let_ cs nm called ps (bs "=") b) node).1, ?_, ?_⟩
  · have := run_def (H := H) (lim := limitVal) (k := ident nm) (text := text) ⟨h, cs, nm, called, ps, b, rfl, rfl⟩ s node st
    unfold replayP at this
    rw [h] at this
    simp only at this
    rw [runs_bind] at this
    obtain ⟨r, s1, h1, h2⟩ := this
    rw [runs_pure] at h2
    rw [h2.2]
    have hr : r = [] := by
      cases b <;>
      · simp only [lowStmt, stmtP, show (decide (bs "=" = bs "<=")) = false from rfl, Bool.false_eq_true, if_false] at h1
        rw [runs_pb, runs_pure] at h1
        exact h1.1
    rw [← hr]; exact h1
  · cases b with
    | expr e =>
      refine ⟨rfl, hn, hps, ?_, ?_⟩
      · show wAnd id limitVal (upAnd (lowAnd e (lowParams ps node).2).1)
        rw [u_and id limitVal limFits_limitVal e _ hb]; exact hb
      · show kAnd numberText (upAnd (lowAnd e (lowParams ps node).2).1)
        rw [u_and id limitVal limFits_limitVal e _ hb]; exact kb
    | select q =>
      refine ⟨rfl, hn, hps, ?_, ?_⟩
      · show wSelect id limitVal (upSelect (lowSelect q (lowParams ps node).2).1)
        rw [u_select id limitVal limFits_limitVal q _ hb]; exact hb
      · show kSelect numberText (upSelect (lowSelect q (lowParams ps node).2).1)
        rw [u_select id limitVal limFits_limitVal q _ hb]; exact kb

/-- The definitions, names and parameters that the theorems are about. -/
example : (match parse limitVal (bs "LET f(x, y) = SELECT *, x + 0x10 AS z FROM g(a=y) WHERE x =~ 'q' LIMIT 5") with
      | some (.let_ cs nm called ps op b) =>
        decide (op = bs "=" ∧ kStmt numberText (.let_ cs nm called ps op b) ∧ Quotable (ident nm) ∧
          ∀ p ∈ ps, PlainParam (paramName p))
      | _ => false) = true ∧ Quotable (bs "a b") ∧ Quotable (bs "SELECT") := by
  decide +kernel

/-! ## What is lost -/

/-- A scope with one variable is written as one item. -/
theorem marshal_one {C : Codec F J} {s : Nat} {st : St F S} {k : Str} {v : V F} {i : MItem J}
    (hd : (st.scp s).depth < 1000) (hv : (st.scp s).vars = [.dict [(k, v)]]) (hk : PlainKey k)
    (hs : skipped k = false) (hi : marshalValue numberText C v = some i) :
    Runs H (marshalP numberText C s) st (some [(k, i)]) st := by
  unfold marshalP
  rw [runs_pb]
  show Runs H (foldP _ _ (st.scp s).vars) st _ _
  have h := marshal_fold (H := H) (num := numberText) (C := C) (ds := [[(k, v)]]) hd hv [[(k, v)]]
    (by intro d hd' k' hk'; simp at hd'; subst hd'; simp [OD.keys] at hk'; subst hk'; exact hk) (some [])
  have he : ([[(k, v)]].flatMap OD.keys).foldl (mstep numberText C [[(k, v)]]) (some []) = some [(k, i)] := by
    simp [OD.keys, mstep, hs, OD.get, hi, OD.set, OD.erase]
  rw [he] at h
  rw [hv]
  exact h

/-- A text that defines `k'` is restored as `k'`, whatever it is stored as. -/
theorem restore_def {C : Codec F J} {k k' text : Str} {t' : CStmt} (h : Defines limitVal k' text t') (t node : Nat)
    (st : St F S) :
    Runs H (unmarshalP H limitVal C [] [(k, .replay text)] t node) st st.scopes.length
      (st.push t [.dict [(k', objOf (lowStmt t' node).1)], .dict []]) := by
  unfold unmarshalP
  rw [runs_pb, copy_push, runs_bind]
  refine ⟨([], (lowStmt t' node).2), st.push t [.dict [(k', objOf (lowStmt t' node).1)]], ?_, ?_⟩
  · rw [foldP, runs_bind]
    refine ⟨_, _, ?_, runs_pure.2 ⟨rfl, rfl⟩⟩
    unfold unmarshalStepP
    simp only [List.contains_nil, Bool.false_eq_true, if_false]
    rw [runs_bind]
    refine ⟨_, _, run_def h _ node _, ?_⟩
    refine runs_pure.2 ⟨rfl, ?_⟩
    have := append_push st t [] (.dict [(k', objOf (lowStmt t' node).1)] : V F)
    simp only [Prim.step, Prod.mk.injEq, true_and] at this
    rw [this]; rfl
  · simp only
    rw [runs_pb, append_push]
    exact runs_pure.2 ⟨rfl, rfl⟩

/-- A text that can not be parsed is not restored. -/
theorem restore_none {C : Codec F J} {k text : Str} (h : parse limitVal text = none) (t node : Nat)
    (st : St F S) :
    Runs H (unmarshalP H limitVal C [] [(k, .replay text)] t node) st st.scopes.length
      (st.push t [.dict []]) := by
  unfold unmarshalP
  rw [runs_pb, copy_push, runs_bind]
  refine ⟨([], node), st.push t [], ?_, ?_⟩
  · rw [foldP, runs_bind]
    refine ⟨_, _, ?_, runs_pure.2 ⟨rfl, rfl⟩⟩
    unfold unmarshalStepP replayP
    simp only [List.contains_nil, Bool.false_eq_true, if_false, h]
    rw [runs_bind]
    exact ⟨_, _, runs_pure.2 ⟨rfl, rfl⟩, runs_pure.2 ⟨rfl, rfl⟩⟩
  · simp only
    rw [runs_pb, append_push]
    exact runs_pure.2 ⟨rfl, rfl⟩

/-- Restoring a plain value. -/
theorem restore_plain {C : Codec F J} {k : Str} {i : MItem J} (hi : ∀ text, i ≠ .replay text) (t node : Nat)
    (st : St F S) :
    Runs H (unmarshalP H limitVal C [] [(k, i)] t node) st st.scopes.length
      (st.push t [.dict ((plainItem C i).toList.map (fun v => (k, v)))]) := by
  unfold unmarshalP
  rw [runs_pb, copy_push, runs_bind]
  refine ⟨((plainItem C i).toList.map (fun v => (k, v)), node), st.push t [], ?_, ?_⟩
  · rw [foldP, runs_bind]
    have hkv : ∀ o : Option (V F), keepValue [] k o = (kept o).toList.map (fun v => (k, v)) := by
      intro o
      cases o with
      | none => rfl
      | some v =>
        simp only [keepValue, kept]
        split <;> simp [OD.set, OD.erase]
    refine ⟨_, _, ?_, runs_pure.2 ⟨rfl, rfl⟩⟩
    unfold unmarshalStepP
    cases i with
    | replay text => exact absurd rfl (hi text)
    | dict j =>
      simp only [List.contains_nil, Bool.false_eq_true, if_false]
      exact runs_pure.2 ⟨by rw [hkv]; rfl, rfl⟩
    | json j =>
      simp only [List.contains_nil, Bool.false_eq_true, if_false]
      exact runs_pure.2 ⟨by rw [hkv]; rfl, rfl⟩
  · simp only
    rw [runs_pb, append_push]
    exact runs_pure.2 ⟨rfl, rfl⟩

/-- What a name refers to after reading into an empty scope. -/
theorem resolve_pushed {k : Str} (hk : PlainKey k) {t : Nat} {st : St F S} (hv : (st.scp t).vars = [])
    (hd : (st.scp t).depth < 999) (ds : List (OD (V F))) :
    Runs H (call (.resolve st.scopes.length k)) (st.push t (ds.map .dict))
      (lookup ds k, (lookup ds k).isSome) (st.push t (ds.map .dict)) := by
  refine (resolve_dicts (ds := ds) hk ?_ ?_).2 ⟨rfl, rfl⟩
  · rw [push_scp]; show (st.scp t).depth + 1 < 1000; omega
  · rw [push_scp]; simp [hv]

/-- **C24** fails for NULL: a variable whose value is NULL is written but not restored. -/
theorem C24_null_refuted (C : Codec F J) {j : J} (h1 : C.enc .null = some j) (h2 : C.dec j = some .null)
    {s t node : Nat} {st st2 : St F S} (hd : (st.scp s).depth < 1000)
    (hv : (st.scp s).vars = [.dict [(bs "X", .null)]]) (hv2 : (st2.scp t).vars = []) (hd2 : (st2.scp t).depth < 999) :
    ∃ items ns st3, Runs H (call (.resolve s (bs "X"))) st (some .null, true) st ∧
      Runs H (marshalP numberText C s) st (some items) st ∧
      Runs H (unmarshalP H limitVal C [] items t node) st2 ns st3 ∧
      Runs H (call (.resolve ns (bs "X"))) st3 (none, false) st3 := by
  refine ⟨_, _, _, ?_, marshal_one hd hv rfl rfl (by simp [marshalValue, h1]; rfl),
    restore_plain (by intro t; simp) t node st2, ?_⟩
  · exact (resolve_dicts (ds := [[(bs "X", .null)]]) (by rfl) hd hv).2 ⟨by simp [OD.get], rfl⟩
  · have := resolve_pushed (H := H) (k := bs "X") rfl hv2 hd2 [[]]
    simpa [plainItem, h2, kept, Val.isNil, OD.get] using this

/-- **C24** fails for integers: `encoding/json` reads a number as a double. -/
theorem C24_integer_refuted (C : Codec F J) {i : I64} {f : F} {j : J} (h1 : C.enc (.int i) = some j)
    (h2 : C.dec j = some (.float f)) {s t node : Nat} {st st2 : St F S} (hd : (st.scp s).depth < 1000)
    (hv : (st.scp s).vars = [.dict [(bs "X", .int i)]]) (hv2 : (st2.scp t).vars = []) (hd2 : (st2.scp t).depth < 999) :
    ∃ items ns st3, Runs H (call (.resolve s (bs "X"))) st (some (.int i), true) st ∧
      Runs H (marshalP numberText C s) st (some items) st ∧
      Runs H (unmarshalP H limitVal C [] items t node) st2 ns st3 ∧
      Runs H (call (.resolve ns (bs "X"))) st3 (some (.float f), true) st3 := by
  refine ⟨_, _, _, ?_, marshal_one hd hv rfl rfl (by simp [marshalValue, h1]; rfl),
    restore_plain (by intro t; simp) t node st2, ?_⟩
  · exact (resolve_dicts (ds := [[(bs "X", .int i)]]) (by rfl) hd hv).2 ⟨by simp [OD.get], rfl⟩
  · have := resolve_pushed (H := H) (k := bs "X") rfl hv2 hd2 [[(bs "X", .float f)]]
    simpa [plainItem, h2, kept, Val.isNil, OD.get] using this

/-- **C24** fails for a definition that is stored under another name than its own: it is restored
under its own name. -/
theorem C24_alias_refuted (C : Codec F J) {e : SExpr} (hn : e.name = bs "X") (hp : e.params = [])
    (hw : wAnd id limitVal (upAnd e.body)) (hk : kAnd numberText (upAnd e.body))
    {s t node : Nat} {st st2 : St F S} (hd : (st.scp s).depth < 1000)
    (hv : (st.scp s).vars = [.dict [(bs "Y", .obj (.sexpr e))]]) (hv2 : (st2.scp t).vars = [])
    (hd2 : (st2.scp t).depth < 999) :
    ∃ items ns st3, Runs H (call (.resolve s (bs "Y"))) st (some (.obj (.sexpr e)), true) st ∧
      Runs H (marshalP numberText C s) st (some items) st ∧
      Runs H (unmarshalP H limitVal C [] items t node) st2 ns st3 ∧
      Runs H (call (.resolve ns (bs "Y"))) st3 (none, false) st3 := by
  have hq : Quotable (bs "X") := by decide +kernel
  have hdef := defines_def (params := []) hq (by simp) (b := .expr (upAnd e.body)) hw hk
  refine ⟨_, _, _, ?_, marshal_one hd hv rfl rfl (by simp only [marshalValue, hn, hp]; rfl),
    restore_def hdef t node st2, ?_⟩
  · exact (resolve_dicts (ds := [[(bs "Y", .obj (.sexpr e))]]) (by rfl) hd hv).2 ⟨by simp [OD.get], rfl⟩
  · have := resolve_pushed (H := H) (k := bs "Y") rfl hv2 hd2
      [[(bs "X", objOf (lowStmt (defStmt numberText (bs "X") [] (.expr (upAnd e.body))) node).1)], []]
    have hl : lookup [[(bs "X", (objOf (lowStmt (defStmt numberText (bs "X") [] (.expr (upAnd e.body))) node).1 : V F))], []]
        (bs "Y") = none := rfl
    rw [hl] at this
    exact this

/-- The name and the parameters of the text written for a definition, read back, or nothing if it
can not be parsed. -/
def rereadNames (text : Str) : Option (Str × List Str) :=
  match (parse limitVal text).map (fun t => (lowStmt t 0).1) with
  | some (.let_ name _ ps _ _) => some (ident name, (letParams ps).1)
  | _ => none

/-- What is written for the definition in a statement, as name and parameters read back. -/
def rereadLet (s : Str) : Option (Option (Str × List Str)) :=
  match (parse limitVal s).map (fun t => (lowStmt t 0).1) with
  | some (.let_ name _ ps _ (.expr e)) =>
    some (rereadNames (defText (ident name) (letParams ps).1 (formatAnd numberText (upAnd e))))
  | _ => none

/-- **C24** fails for names and parameters: the name is written without escapes, so a backslash in
it is read as an escape; a parameter is written without backquotes, so one with a blank can not be
read, and the variable is lost. -/
theorem C24_names_refuted :
    rereadLet (bs "LET X(a) = 1") = some (some (bs "X", [bs "a"])) ∧
    rereadLet (bs "LET `a\\\\b` = 1") = some (some ([97, 8], [])) ∧
    ident (bs "`a\\\\b`") = [97, 92, 98] ∧
    rereadLet (bs "LET X(`a b`) = 1") = some none := by
  decide +kernel

/-- **C24** fails for defaults: what is restored has none. -/
theorem C24_default_refuted {e : SExpr} {w : V F} (hd : e.defaults ≠ []) (h : SameVar (.obj (.sexpr e)) w) :
    w ≠ .obj (.sexpr e) := by
  obtain ⟨b, rfl, _⟩ := h
  intro he
  simp only [Val.obj.injEq, Obj.sexpr.injEq] at he
  rw [← he] at hd
  exact hd rfl

/-- **C24** fails if one value can not be written: then nothing is. -/
theorem C24_error_refuted (C : Codec F J) {s : Nat} {st : St F S} {ds : List (OD (V F))}
    (hd : (st.scp s).depth < 1000) (hv : (st.scp s).vars = ds.map .dict)
    (hk : ∀ d ∈ ds, ∀ k ∈ OD.keys d, PlainKey k) {k : Str} {f : F}
    (hs : skipped k = false) (hl : lookup ds k = some (.float f)) (hm : C.enc (.float f) = none) :
    Runs H (marshalP numberText C s) st none st :=
  marshal_fails hd hv hk hs hl (by simp [marshalValue, hm])

/-- A codec in the manner of `encoding/json`, for plain values at the top: an integer is read as a
double, a materialized query as an array; other objects can not be written. -/
def jsonCodec : Codec F (V F) where
  enc
    | .obj _ => none
    | v => some v
  dec
    | .int i => some (.float (FloatOps.ofI64 i))
    | .query rows => some (.arr rows)
    | v => some v
  decDict v := some v

/-- The hypotheses are satisfied: a scope with a plain variable, one that shadows it, and a
definition. -/
example {e : SExpr} (hn : e.name = bs "f") (hp : e.params = [bs "x"]) (hw : wAnd id limitVal (upAnd e.body))
    (hk : kAnd numberText (upAnd e.body)) (k : Str) (v : V F)
    (h : lookup [[(bs "X", .str (bs "old")), (bs "config", .null)], [(bs "X", .str (bs "new"))],
      [(bs "f", .obj (.sexpr e))]] k = some v) (hs : skipped k = false) : Keeps jsonCodec k v := by
  have hf : Quotable (bs "f") := by decide +kernel
  have hx : PlainParam (bs "x") := by decide +kernel
  simp only [lookup, List.reverse_cons, List.reverse_nil, List.nil_append, List.cons_append, List.findSome?_cons,
    List.findSome?_nil, OD.get] at h
  by_cases h1 : bs "f" = k
  · subst h1
    simp only [if_true, Option.some.injEq] at h
    subst h
    exact ⟨hn, hf, by rw [hp]; simpa using hx, hw, hk⟩
  · simp only [h1, if_false] at h
    by_cases h2 : bs "X" = k
    · subst h2
      simp only [if_true, Option.some.injEq] at h
      subst h
      exact ⟨by simp, _, rfl, rfl⟩
    · simp only [h2, if_false] at h
      by_cases h3 : bs "config" = k
      · subst h3; cases hs
      · simp [h3] at h
end
end Vfilter.Vql
