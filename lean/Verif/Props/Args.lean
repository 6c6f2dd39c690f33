import Verif.Args
import Verif.ODLemmas
import Verif.F64
import Mathlib.Data.List.Perm.Subperm
/-!
# C52 argument parsing, C53 keyword expansion, C54 list arguments
-/

set_option linter.all false

namespace Vfilter

section
variable {A B : Type}

/-! ## C52 -/

/-- A field is fine: absent and optional, or present and accepted. -/
def FieldOk (args : OD A) (f : Field A B) : Prop :=
  match args.get f.name with
  | none => f.required = false
  | some v => ∃ b, f.parse args v = .ok b

/-- The declared fields have different names and different positions in the struct. -/
structure Declared (fields : List (Field A B)) : Prop where
  names : (fields.map (·.name)).Nodup
  idxs : (fields.map (·.idx)).Nodup

theorem parseLoop_ok (args : OD A) (fields : List (Field A B)) (st st' : Target B) (parsed parsed' : List Str)
    (h : parseLoop args fields st parsed = .ok (st', parsed')) :
    (∀ f ∈ fields, FieldOk args f) ∧
    parsed' = parsed ++ (fields.map (·.name)).filter (fun n => (args.get n).isSome) ∧
    (∀ i, (∀ f ∈ fields, f.idx ≠ i) → st' i = st i) ∧
    ((fields.map (·.idx)).Nodup → ∀ f ∈ fields, st' f.idx =
      match args.get f.name with
      | none => st f.idx
      | some v => match f.parse args v with
        | .ok b => b
        | _ => st f.idx) := by
  induction fields generalizing st parsed with
  | nil =>
    simp only [parseLoop, POut.ok.injEq, Prod.mk.injEq] at h
    obtain ⟨rfl, rfl⟩ := h
    simp
  | cons f fs ih =>
    simp only [parseLoop] at h
    cases hg : args.get f.name with
    | none =>
      rw [hg] at h
      simp only at h
      cases hr : f.required with
      | true => rw [hr] at h; simp at h
      | false =>
        rw [hr] at h
        simp only [Bool.false_eq_true, if_false] at h
        obtain ⟨h1, h2, h3, h4⟩ := ih _ _ h
        refine ⟨?_, ?_, ?_, ?_⟩
        · intro g hgm
          rcases List.mem_cons.1 hgm with rfl | hgm
          · simp [FieldOk, hg, hr]
          · exact h1 g hgm
        · rw [h2]; simp [hg]
        · intro i hi
          exact h3 i (fun g hgm => hi g (by simp [hgm]))
        · intro hn g hgm
          simp only [List.map_cons, List.nodup_cons] at hn
          rcases List.mem_cons.1 hgm with rfl | hgm
          · rw [hg]
            exact h3 _ (fun g' hg' e => hn.1 (by rw [← e]; exact List.mem_map.2 ⟨g', hg', rfl⟩))
          · exact h4 hn.2 g hgm
    | some v =>
      rw [hg] at h
      simp only at h
      cases hp : f.parse args v with
      | err => rw [hp] at h; simp at h
      | panic => rw [hp] at h; simp at h
      | ok b =>
        rw [hp] at h
        simp only at h
        obtain ⟨h1, h2, h3, h4⟩ := ih _ _ h
        refine ⟨?_, ?_, ?_, ?_⟩
        · intro g hgm
          rcases List.mem_cons.1 hgm with rfl | hgm
          · simp [FieldOk, hg, hp]
          · exact h1 g hgm
        · rw [h2]; simp [hg]
        · intro i hi
          rw [h3 i (fun g hgm => hi g (by simp [hgm]))]
          have : i ≠ f.idx := fun e => hi f (by simp) e.symm
          simp [Target.set, this]
        · intro hn g hgm
          simp only [List.map_cons, List.nodup_cons] at hn
          rcases List.mem_cons.1 hgm with rfl | hgm
          · rw [hg, h3 _ (fun g' hg' e => hn.1 (by rw [← e]; exact List.mem_map.2 ⟨g', hg', rfl⟩))]
            simp [Target.set, hp]
          · rw [h4 hn.2 g hgm]
            have : g.idx ≠ f.idx := fun e => hn.1 (by rw [← e]; exact List.mem_map.2 ⟨g, hgm, rfl⟩)
            simp [Target.set, this]

theorem parseLoop_total (args : OD A) (fields : List (Field A B)) (st : Target B) (parsed : List Str)
    (h : ∀ f ∈ fields, FieldOk args f) : ∃ r, parseLoop args fields st parsed = .ok r := by
  induction fields generalizing st parsed with
  | nil => exact ⟨_, rfl⟩
  | cons f fs ih =>
    have hf := h f (by simp)
    simp only [FieldOk] at hf
    simp only [parseLoop]
    cases hg : args.get f.name with
    | none =>
      rw [hg] at hf
      simp only at hf
      simp only [hf, Bool.false_eq_true, if_false]
      exact ih _ _ (fun g hgm => h g (by simp [hgm]))
    | some v =>
      rw [hg] at hf
      obtain ⟨b, hb⟩ := hf
      simp only [hb]
      exact ih _ _ (fun g hgm => h g (by simp [hgm]))

/-- Names parsed: present names.  They are all arguments iff none is undeclared. -/
theorem filter_present_length (args : OD A) (names : List Str) (hn : names.Nodup) (hw : OD.WF args) :
    (names.filter (fun n => (args.get n).isSome)).length = args.length ↔
      ∀ k ∈ args.keys, k ∈ names := by
  have hsub : ∀ k, k ∈ names.filter (fun n => (args.get n).isSome) ↔ k ∈ names ∧ k ∈ args.keys := by
    intro k
    rw [List.mem_filter, OD.mem_keys_iff, Option.isSome_iff_exists]
  have hnd : (names.filter (fun n => (args.get n).isSome)).Nodup := hn.filter _
  have hlen : args.keys.length = args.length := by simp [OD.keys]
  constructor
  · intro h k hk
    have hp : (names.filter (fun n => (args.get n).isSome)).Subperm args.keys :=
      List.subperm_of_subset hnd (fun k hk => ((hsub k).1 hk).2)
    have hperm := hp.perm_of_length_le (by omega)
    exact ((hsub k).1 (hperm.mem_iff.2 hk)).1
  · intro h
    have h1 := (List.subperm_of_subset hnd (fun k hk => ((hsub k).1 hk).2)).length_le
    have h2 := (List.subperm_of_subset hw (fun k hk => (hsub k).2 ⟨h k hk, hk⟩)).length_le
    omega

/-- Parsing succeeds iff every required argument is present, every present argument is
accepted by its field's parser, and no argument is undeclared. -/
theorem C52_iff (fields : List (Field A B)) (args : OD A) (st : Target B) (hd : Declared fields) (hw : OD.WF args) :
    (∃ st', parse fields args st = .ok st') ↔
      (∀ f ∈ fields, f.required = true → f.name ∈ args.keys) ∧
      (∀ f ∈ fields, ∀ v, args.get f.name = some v → ∃ b, f.parse args v = .ok b) ∧
      (∀ k ∈ args.keys, ∃ f ∈ fields, f.name = k) := by
  have hok : (∀ f ∈ fields, FieldOk args f) ↔
      (∀ f ∈ fields, f.required = true → f.name ∈ args.keys) ∧
      (∀ f ∈ fields, ∀ v, args.get f.name = some v → ∃ b, f.parse args v = .ok b) := by
    constructor
    · intro h
      constructor
      · intro f hf hr
        have := h f hf
        rw [OD.mem_keys_iff]
        simp only [FieldOk] at this
        cases hg : args.get f.name with
        | none => rw [hg] at this; simp only at this; rw [hr] at this; simp at this
        | some v => exact ⟨v, rfl⟩
      · intro f hf v hv
        have := h f hf
        simp only [FieldOk, hv] at this
        exact this
    · rintro ⟨h1, h2⟩ f hf
      simp only [FieldOk]
      cases hg : args.get f.name with
      | none =>
        simp only
        cases hr : f.required with
        | false => rfl
        | true =>
          obtain ⟨v, hv⟩ := (OD.mem_keys_iff args _).1 (h1 f hf hr)
          rw [hg] at hv; simp at hv
      | some v => exact h2 f hf v hg
  rw [← and_assoc, ← hok]
  have hcount := filter_present_length args (fields.map (·.name)) hd.names hw
  have hkeys : (∀ k ∈ args.keys, k ∈ fields.map (·.name)) ↔ (∀ k ∈ args.keys, ∃ f ∈ fields, f.name = k) := by
    simp only [List.mem_map]
  constructor
  · rintro ⟨st', h⟩
    unfold parse at h
    cases hl : parseLoop args fields st [] with
    | err => rw [hl] at h; simp at h
    | panic => rw [hl] at h; simp at h
    | ok r =>
      obtain ⟨st1, parsed⟩ := r
      rw [hl] at h
      obtain ⟨h1, h2, _, _⟩ := parseLoop_ok args fields st st1 [] parsed hl
      refine ⟨h1, ?_⟩
      simp only at h
      simp only [List.nil_append] at h2
      rw [← hkeys, ← hcount, ← h2]
      by_cases hlen : parsed.length ≠ args.length
      · rw [if_pos hlen] at h
        split at h
        · rename_i hall
          have : ∀ k ∈ args.keys, k ∈ fields.map (·.name) := by
            intro k hk
            have := List.all_eq_true.1 hall k hk
            rw [List.contains_iff_mem, h2] at this
            exact (List.mem_filter.1 this).1
          rw [h2]; exact hcount.2 this
        · simp at h
      · simpa using hlen
  · rintro ⟨h1, h2⟩
    obtain ⟨⟨st1, parsed⟩, hl⟩ := parseLoop_total args fields st [] h1
    obtain ⟨_, hp, _, _⟩ := parseLoop_ok args fields st st1 [] parsed hl
    simp only [List.nil_append] at hp
    refine ⟨st1, ?_⟩
    unfold parse
    rw [hl]
    have : parsed.length = args.length := by rw [hp]; exact hcount.2 (hkeys.2 h2)
    simp [this]

/-- On success each declared field holds the parsed value of its argument, or keeps its
default when absent; nothing else in the struct changes. -/
theorem C52_result (fields : List (Field A B)) (args : OD A) (st st' : Target B) (hd : Declared fields)
    (h : parse fields args st = .ok st') :
    (∀ f ∈ fields, (args.get f.name = none → st' f.idx = st f.idx) ∧
      ∀ v b, args.get f.name = some v → f.parse args v = .ok b → st' f.idx = b) ∧
    ∀ i, (∀ f ∈ fields, f.idx ≠ i) → st' i = st i := by
  unfold parse at h
  cases hl : parseLoop args fields st [] with
  | err => rw [hl] at h; simp at h
  | panic => rw [hl] at h; simp at h
  | ok r =>
    obtain ⟨st1, parsed⟩ := r
    rw [hl] at h
    have e : st1 = st' := by
      simp only at h
      (repeat' split at h) <;> simp_all
    subst e
    obtain ⟨h1, _, h3, h4⟩ := parseLoop_ok args fields st st1 [] parsed hl
    refine ⟨fun f hf => ⟨?_, ?_⟩, h3⟩
    · intro hg
      rw [h4 hd.idxs f hf, hg]
    · intro v b hv hb
      rw [h4 hd.idxs f hf, hv]
      simp [hb]

/-- No two fields influence each other: when parsers only look at their own argument (as
all built-in ones do), the value of a field is the same for any two argument dicts that
agree on it. -/
theorem C52_independent (fields : List (Field A B)) (args args' : OD A) (st s1 s2 : Target B) (hd : Declared fields)
    (f : Field A B) (hf : f ∈ fields) (hown : ∀ a a' v, f.parse a v = f.parse a' v)
    (hag : args.get f.name = args'.get f.name)
    (h1 : parse fields args st = .ok s1) (h2 : parse fields args' st = .ok s2) :
    s1 f.idx = s2 f.idx := by
  have r1 := (C52_result fields args st s1 hd h1).1 f hf
  have r2 := (C52_result fields args' st s2 hd h2).1 f hf
  cases hg : args.get f.name with
  | none => rw [r1.1 hg, r2.1 (by rw [← hag]; exact hg)]
  | some v =>
    have : ∃ b, f.parse args v = .ok b := by
      unfold parse at h1
      cases hl : parseLoop args fields st [] with
      | err => rw [hl] at h1; simp at h1
      | panic => rw [hl] at h1; simp at h1
      | ok r =>
        have := (parseLoop_ok args fields st r.1 [] r.2 hl).1 f hf
        simpa only [FieldOk, hg] using this
    obtain ⟨b, hb⟩ := this
    rw [r1.2 v b hg hb, r2.2 v b (by rw [← hag]; exact hg) (by rw [hown args' args]; exact hb)]

/-- A struct that declares the same name twice lets undeclared arguments through: the
code compares counts. -/
theorem C52_duplicate_refuted :
    let f : Nat → Field Nat Nat := fun i => ⟨bs "a", i, false, fun _ v => .ok v⟩
    ∃ st', parse [f 0, f 1] [(bs "a", 1), (bs "zzz", 2)] (fun _ => 0) = .ok st' := ⟨_, rfl⟩

example : ∃ st', parse [(⟨bs "a", 0, true, fun _ v => .ok v⟩ : Field Nat Nat), ⟨bs "b", 1, false, fun _ v => .ok v⟩]
    [(bs "a", 7)] (fun _ => 5) = .ok st' ∧ st' 0 = 7 ∧ st' 1 = 5 := ⟨_, rfl, rfl, rfl⟩
example : parse [(⟨bs "a", 0, true, fun _ v => .ok v⟩ : Field Nat Nat)] [(bs "b", 1)] (fun _ => 0) = .err := rfl
example : parse [(⟨bs "a", 0, true, fun _ v => .ok v⟩ : Field Nat Nat)] [(bs "a", 1), (bs "b", 1)] (fun _ => 0) = .err := rfl
example : Declared [(⟨bs "a", 0, true, fun _ v => .ok v⟩ : Field Nat Nat), ⟨bs "b", 1, false, fun _ v => .ok v⟩] :=
  ⟨by decide, by decide⟩

/-! ## C53, free form -/

theorem foldl_set_filter (l acc : OD A) (h : (OD.keys acc ++ OD.keys l).Nodup) :
    l.foldl (fun d p => OD.set d p.1 p.2) acc = acc ++ l := by
  have := OD.mergeFrom_append acc l (by rw [OD.keys_append]; exact h)
  simpa [OD.mergeFrom] using this

/-- Free form parsing returns exactly the undeclared arguments, in order. -/
theorem C53_freeform (fields : List (Field A B)) (args : OD A) (st st' : Target B) (kw : OD A)
    (hd : Declared fields) (hw : OD.WF args) (h : parseFree fields args st = .ok (st', kw)) :
    kw = args.filter (fun p => decide (p.1 ∉ fields.map (·.name))) := by
  unfold parseFree at h
  cases hl : parseLoop args fields st [] with
  | err => rw [hl] at h; simp at h
  | panic => rw [hl] at h; simp at h
  | ok r =>
    obtain ⟨st1, parsed⟩ := r
    rw [hl] at h
    obtain ⟨_, h2, _, _⟩ := parseLoop_ok args fields st st1 [] parsed hl
    simp only [List.nil_append] at h2
    have hcount := filter_present_length args (fields.map (·.name)) hd.names hw
    rw [← h2] at hcount
    have hfil : args.filter (fun p => !parsed.contains p.1) =
        args.filter (fun p => decide (p.1 ∉ fields.map (·.name))) := by
      apply List.filter_congr
      intro p hp
      have hk : (args.get p.1).isSome := by
        rw [OD.get_of_mem hw (v := p.2) hp]; rfl
      by_cases hm : p.1 ∈ fields.map (·.name)
      · have : p.1 ∈ parsed := by rw [h2]; exact List.mem_filter.2 ⟨hm, hk⟩
        simp only [List.contains_iff_mem.2 this, hm, not_true_eq_false, decide_false, Bool.not_true]
      · have : p.1 ∉ parsed := by rw [h2]; exact fun hx => hm (List.mem_filter.1 hx).1
        have hc : parsed.contains p.1 = false := by
          cases hc : parsed.contains p.1 with
          | false => rfl
          | true => exact absurd (List.contains_iff_mem.1 hc) this
        simp only [hc, hm, not_false_eq_true, decide_true, Bool.not_false]
    simp only at h
    by_cases hlen : parsed.length ≠ args.length
    · rw [if_pos hlen] at h
      simp only [POut.ok.injEq, Prod.mk.injEq] at h
      rw [← h.2, hfil, foldl_set_filter]
      · simp
      · simp only [OD.keys, List.map_nil, List.nil_append]
        exact hw.sublist (List.filter_sublist.map _)
    · rw [if_neg hlen] at h
      simp only [POut.ok.injEq, Prod.mk.injEq] at h
      rw [← h.2]
      symm
      rw [List.filter_eq_nil_iff]
      intro p hp
      have := hcount.1 (by simpa using hlen) p.1 (List.mem_map.2 ⟨p, hp, rfl⟩)
      simp [this]

example : ∃ st', parseFree [(⟨bs "a", 0, true, fun _ v => .ok v⟩ : Field Nat Nat)]
    [(bs "x", 1), (bs "a", 2), (bs "y", 3)] (fun _ => 0) = .ok (st', [(bs "x", 1), (bs "y", 3)]) := ⟨_, rfl⟩

end

/-! ## C53, keyword expansion -/

section
variable {F X : Type} [FloatOps F] {B : Type}

theorem get_map_val (d : OD (Val F X)) (k : Str) :
    OD.get (d.map (fun p => (p.1, (.val p.2 : Arg F X)))) k = (d.get k).map .val := by
  induction d with
  | nil => rfl
  | cons p r ih =>
    obtain ⟨k', v⟩ := p
    simp only [List.map_cons, OD.get]
    by_cases hk : k' = k
    · rw [if_pos hk, if_pos hk]; rfl
    · rw [if_neg hk, if_neg hk]; exact ih

/-- Passing only `**`=dict is the same as passing the dict's entries. -/
theorem C53_expand_partial (fields : List (Field (Arg F X) B)) (st : Target B) (d : OD (Val F X)) (a : Arg F X)
    (ha : a.reduce = .dict d) (hs : d.get starKey = none) :
    extractArgs fields [(starKey, a)] st = extractArgs fields (d.map (fun p => (p.1, .val p.2))) st := by
  unfold extractArgs
  have e1 : normalizeArgs [(starKey, a)] = d.map (fun p => (p.1, (.val p.2 : Arg F X))) := by
    simp [normalizeArgs, OD.get, ha]
  have e2 : normalizeArgs (d.map (fun p => (p.1, (.val p.2 : Arg F X)))) = d.map (fun p => (p.1, .val p.2)) := by
    simp only [normalizeArgs, get_map_val, hs, Option.map_none]
  rw [e1, e2]

/-- Arguments without `**`, or with a `**` that is no dict, are left alone. -/
theorem C53_no_expansion (args : OD (Arg F X))
    (h : ∀ a, args.get starKey = some a → ∀ d, a.reduce ≠ .dict d) : normalizeArgs args = args := by
  unfold normalizeArgs
  cases hg : args.get starKey with
  | none => rfl
  | some a =>
    have := h a hg
    cases hr : a.reduce <;> simp_all

/-- With a `**` dict all other arguments are dropped. -/
theorem C53_replaces (args : OD (Arg F X)) (a : Arg F X) (d : OD (Val F X))
    (hg : args.get starKey = some a) (ha : a.reduce = .dict d) :
    normalizeArgs args = d.map (fun p => (p.1, .val p.2)) := by
  simp [normalizeArgs, hg, ha]

end

/-- Explicit arguments are not merged with the expansion: `f(a=1, `**`=dict(b=2))` fails
with "Field a is required". -/
theorem C53_merge_refuted :
    let fa : Field (Arg F64 Unit) (FVal F64 Unit) := ⟨bs "a", 0, true, fun _ v => .ok (.any v.reduce)⟩
    let fb : Field (Arg F64 Unit) (FVal F64 Unit) := ⟨bs "b", 1, true, fun _ v => .ok (.any v.reduce)⟩
    extractArgs [fa, fb] [(bs "a", .val (.int 1)), (starKey, .val (.dict [(bs "b", .int 2)]))]
      (fun _ => .any .null) = .err := rfl

example : extractArgs [(⟨bs "a", 0, true, fun _ v => .ok (.any v.reduce)⟩ : Field (Arg F64 Unit) (FVal F64 Unit))]
    [(starKey, .lazy (.dict [(bs "a", .int 2)]) .null)] (fun _ => .any .null) ≠ .err := by
  intro h; cases h

/-! ## C54 -/

section
variable {F X : Type} [FloatOps F]

/-- The element is converted by its only member. -/
def SingleStringMember (W : World F X) (P : Print F X) (v : Val F X) : Prop :=
  ∃ m s, membersOf P v = [m] ∧ assocStr W v m = (.str s, true)

/-- One string per element: strings as they are, other values in their printed form. -/
theorem C54_strings_partial (W : World F X) (P : Print F X) (l : List (Val F X))
    (h : ∀ v ∈ l, ¬ SingleStringMember W P v) :
    extractStrings W P (.arr l) = l.map (fun v => match v with
      | .str s => s
      | v => P.sprint v) := by
  have key : ∀ v ∈ l, stringElem W P v = [match v with
      | .str s => s
      | v => P.sprint v] := by
    intro v hv
    have hn := h v hv
    unfold stringElem
    cases v with
    | str s => rfl
    | _ =>
      simp only [Val.toStr]
      split
      · rename_i m hm
        split
        · rename_i x hx
          cases x with
          | str s => exact absurd ⟨m, s, hm, hx⟩ hn
          | _ => rfl
        · rfl
      · rfl
  simp only [extractStrings]
  clear h
  induction l with
  | nil => rfl
  | cons v l ih =>
    rw [List.flatMap_cons, key v (by simp), ih (fun w hw => key w (by simp [hw]))]
    rfl

/-- A scalar becomes a one element list. -/
theorem C54_scalar (W : World F X) (P : Print F X) (v : Val F X) (h : v.isArr = false) :
    extractStrings W P v = [match v with
      | .str s => s
      | v => P.sprint v] := by
  cases v <;> first | rfl | (exact absurd h (by simp [Val.isArr]))

/-- Any-lists keep all elements, in order; a scalar becomes a one element list. -/
theorem C54_anys (v : Val F X) :
    (∀ l, v = .arr l → extractAnys v = l) ∧ (v.isArr = false → extractAnys v = [v]) := by
  constructor
  · rintro l rfl; rfl
  · intro h; cases v <;> simp_all [extractAnys, Val.isArr]

/-- No element is lost or reordered, whatever the elements: each one's text (the string, or
the printed form) is in the result, in order. -/
theorem C54_all_elements (W : World F X) (P : Print F X) (l : List (Val F X)) :
    (l.map (fun v => match v with
      | .str s => s
      | v => P.sprint v)).Sublist (extractStrings W P (.arr l)) := by
  simp only [extractStrings]
  induction l with
  | nil => exact List.Sublist.slnil
  | cons v l ih =>
    rw [List.flatMap_cons, List.map_cons, ← List.singleton_append]
    refine List.Sublist.append ?_ ih
    unfold stringElem
    cases v with
    | str s => exact List.Sublist.refl _
    | _ => exact List.sublist_append_right _ _

end

/-- A dict with one member, a string, is added twice: as that string, and printed. -/
theorem C54_strings_refuted :
    extractStrings ({} : World F64 Unit) ⟨fun _ => bs "{a:x}", fun _ => []⟩ (.arr [.dict [(bs "a", .str (bs "x"))]]) =
      [bs "x", bs "{a:x}"] := by decide +kernel

/-- The same for a string argument: a query with one row of one string column is to be taken for that
string (the comment at arg_parser/parser.go:233-237), but the text of the whole array is taken. -/
theorem C54_query_as_string_refuted (P : Print F X) (k s : Str) (hk : k ∉ dictMethods) :
    stringParser ({} : World F X) P (.arr [.dict [(k, .str s)]]) = P.sprint (.arr [.dict [(k, .str s)]]) ∧
      stringParser ({} : World F X) P (.arr [.str s]) = s := by
  refine ⟨?_, rfl⟩
  have h : extractStrings ({} : World F X) P (.arr [.dict [(k, .str s)]]) = [s, P.sprint (.dict [(k, .str s)])] := by
    simp [extractStrings, stringElem, Val.toStr, membersOf, OD.keys, assocStr, OD.get, hk]
  simp only [stringParser, h]

example : bs "Name" ∉ dictMethods := by decide

example : extractStrings ({} : World F64 Unit) ⟨fun _ => bs "1", fun _ => []⟩ (.arr [.str (bs "x"), .int 1]) =
    [bs "x", bs "1"] := by decide +kernel

/-! ## C52, the built-in parsers -/

section
variable {F X : Type} [FloatOps F]

/-- What the built-in field types accept: number fields accept numbers and booleans, dict
fields everything but strings and integers, the others everything. -/
theorem C52_accepts (W : World F X) (P : Print F X) (truth : Val F X → Bool) (k : FieldKind) (a : Arg F X) :
    (∃ b, builtinParse W P truth k a = .ok b) ↔
      match k with
      | .float64 | .int64 | .uint64 | .int => (∃ b, a.reduce = .bool b) ∨ (∃ i, a.reduce = .int i) ∨ ∃ f, a.reduce = .float f
      | .float32 => False
      | .dict => (∀ s, a.reduce ≠ .str s) ∧ ∀ i, a.reduce ≠ .int i
      | _ => True := by
  cases k <;> simp only [builtinParse] <;> generalize a.reduce = v <;>
    cases v <;> simp [Val.toFloat, Val.toInt64, dictParser]

/-- What the built-in field types store: numbers are converted, booleans are the truth of the value,
`Any` fields get the materialized value, lazy fields the argument itself, lists see C54. -/
theorem C52_values (W : World F X) (P : Print F X) (truth : Val F X → Bool) (a : Arg F X) :
    (∀ i, a.reduce = .int i → builtinParse W P truth .int64 a = .ok (.int i) ∧
      builtinParse W P truth .uint64 a = .ok (.uint i) ∧ builtinParse W P truth .int a = .ok (.int i)) ∧
    (∀ f, a.reduce = .float f → builtinParse W P truth .float64 a = .ok (.float f)) ∧
    (∀ s, a.reduce = .str s → builtinParse W P truth .string a = .ok (.str s)) ∧
    (a.reduce = .null → builtinParse W P truth .string a = .ok (.str [])) ∧
    (∀ d, a.reduce = .dict d → builtinParse W P truth .dict a = .ok (.dict d)) ∧
    builtinParse W P truth .bool a = .ok (.bool (truth a.reduce)) ∧
    (∀ v, a = .val v → builtinParse W P truth .any a = .ok (.any v)) ∧
    (∀ r m, a = .lazy r m → builtinParse W P truth .any a = .ok (.any m)) ∧
    builtinParse W P truth .lazyAny a = .ok (.arg a) ∧
    builtinParse W P truth .lazyExpr a = .ok (.arg a) := by
  refine ⟨?_, ?_, ?_, ?_, ?_, rfl, ?_, ?_, rfl, rfl⟩
  · intro i h; simp [builtinParse, h, Val.toInt64]
  · intro f h; simp [builtinParse, h, Val.toFloat]
  · intro s h; simp [builtinParse, h, stringParser]
  · intro h; simp [builtinParse, h, stringParser]
  · intro d h; simp [builtinParse, h, dictParser]
  · rintro v rfl; rfl
  · rintro r m rfl; rfl

/-- The parsers of the built-in field types depend on their own argument only. -/
def builtinField (W : World F X) (P : Print F X) (truth : Val F X → Bool) (name : Str) (idx : Nat) (req : Bool)
    (k : FieldKind) : Field (Arg F X) (FVal F X) :=
  ⟨name, idx, req, fun _ a => builtinParse W P truth k a⟩

/-- A struct of built-in field types: parsing succeeds iff required arguments are there, all
arguments are declared, and each argument has a kind its field accepts. -/
theorem C52_builtin (W : World F X) (P : Print F X) (truth : Val F X → Bool)
    (decl : List (Str × Bool × FieldKind)) (args : OD (Arg F X)) (st : Target (FVal F X))
    (hn : (decl.map (·.1)).Nodup) (hw : OD.WF args) :
    (∃ st', parse (decl.zipIdx.map (fun p => builtinField W P truth p.1.1 p.2 p.1.2.1 p.1.2.2)) args st = .ok st') ↔
      (∀ d ∈ decl, d.2.1 = true → d.1 ∈ args.keys) ∧
      (∀ d ∈ decl, ∀ v, args.get d.1 = some v → ∃ b, builtinParse W P truth d.2.2 v = .ok b) ∧
      (∀ k ∈ args.keys, ∃ d ∈ decl, d.1 = k) := by
  have hfst : ∀ (l : List (Str × Bool × FieldKind)) (n : Nat), (l.zipIdx n).map (·.1) = l := by
    intro l n; simp
  have hd : Declared (decl.zipIdx.map (fun p => builtinField W P truth p.1.1 p.2 p.1.2.1 p.1.2.2)) := by
    constructor
    · rw [List.map_map]
      have : (decl.zipIdx.map ((fun f : Field (Arg F X) (FVal F X) => f.name) ∘
          fun p => builtinField W P truth p.1.1 p.2 p.1.2.1 p.1.2.2)) = (decl.zipIdx.map (·.1)).map (·.1) := by
        rw [List.map_map]; rfl
      rw [this, hfst]; exact hn
    · rw [List.map_map]
      have : (decl.zipIdx.map ((fun f : Field (Arg F X) (FVal F X) => f.idx) ∘
          fun p => builtinField W P truth p.1.1 p.2 p.1.2.1 p.1.2.2)) = decl.zipIdx.map (·.2) := rfl
      rw [this]; simp [List.nodup_range']
  rw [C52_iff _ _ _ hd hw]
  have hmem : ∀ (Q : Field (Arg F X) (FVal F X) → Prop) (R : Str × Bool × FieldKind → Prop),
      (∀ d i, Q (builtinField W P truth d.1 i d.2.1 d.2.2) ↔ R d) →
      ((∀ f ∈ decl.zipIdx.map (fun p => builtinField W P truth p.1.1 p.2 p.1.2.1 p.1.2.2), Q f) ↔ ∀ d ∈ decl, R d) ∧
      ((∃ f ∈ decl.zipIdx.map (fun p => builtinField W P truth p.1.1 p.2 p.1.2.1 p.1.2.2), Q f) ↔ ∃ d ∈ decl, R d) := by
    intro Q R hQR
    have hm : ∀ d, d ∈ decl ↔ ∃ i, (d, i) ∈ decl.zipIdx := by
      intro d
      constructor
      · intro hd
        have : d ∈ (decl.zipIdx).map (·.1) := by rw [hfst]; exact hd
        obtain ⟨⟨d', i⟩, h1, rfl⟩ := List.mem_map.1 this
        exact ⟨i, h1⟩
      · rintro ⟨i, hi⟩
        rw [← hfst decl 0]
        exact List.mem_map.2 ⟨(d, i), hi, rfl⟩
    constructor
    · constructor
      · intro h d hd
        obtain ⟨i, hi⟩ := (hm d).1 hd
        exact (hQR d i).1 (h _ (List.mem_map.2 ⟨(d, i), hi, rfl⟩))
      · intro h f hf
        obtain ⟨⟨d, i⟩, hi, rfl⟩ := List.mem_map.1 hf
        exact (hQR d i).2 (h d ((hm d).2 ⟨i, hi⟩))
    · constructor
      · rintro ⟨f, hf, hq⟩
        obtain ⟨⟨d, i⟩, hi, rfl⟩ := List.mem_map.1 hf
        exact ⟨d, (hm d).2 ⟨i, hi⟩, (hQR d i).1 hq⟩
      · rintro ⟨d, hd, hr⟩
        obtain ⟨i, hi⟩ := (hm d).1 hd
        exact ⟨_, List.mem_map.2 ⟨(d, i), hi, rfl⟩, (hQR d i).2 hr⟩
  rw [(hmem (fun f => f.required = true → f.name ∈ args.keys) (fun d => d.2.1 = true → d.1 ∈ args.keys)
    (fun d i => Iff.rfl)).1]
  rw [(hmem (fun f => ∀ v, args.get f.name = some v → ∃ b, f.parse args v = .ok b)
    (fun d => ∀ v, args.get d.1 = some v → ∃ b, builtinParse W P truth d.2.2 v = .ok b) (fun d i => Iff.rfl)).1]
  have h3 : (∀ k ∈ args.keys, ∃ f ∈ decl.zipIdx.map (fun p => builtinField W P truth p.1.1 p.2 p.1.2.1 p.1.2.2),
      f.name = k) ↔ ∀ k ∈ args.keys, ∃ d ∈ decl, d.1 = k := by
    constructor
    · intro h k hk
      exact (hmem (fun f => f.name = k) (fun d => d.1 = k) (fun d i => Iff.rfl)).2.1 (h k hk)
    · intro h k hk
      exact (hmem (fun f => f.name = k) (fun d => d.1 = k) (fun d i => Iff.rfl)).2.2 (h k hk)
  rw [h3]

end

/-- A `float32` field makes every call that supplies a number crash. -/
theorem C52_float32_panics :
    builtinParse ({} : World F64 Unit) ⟨fun _ => [], fun _ => []⟩ (fun _ => true) .float32 (.val (.int 1)) = .panic := rfl

end Vfilter
