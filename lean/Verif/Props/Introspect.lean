import Verif.Introspect
import Verif.ODLemmas
/-!
# C69: descriptions of types are complete, and introspection ends

The specification is in terms of `Types` (what the reflect package says) only: which fields are
visible through embedded structs, which methods are accessors, what a reference to a type is.
-/

set_option linter.all false

namespace Vfilter.Intro
variable {T : Type} (U : Types T)

/-! ## Specification -/

/-- Introspection of `t` from the map `m` ends with the map `r`: some depth of recursion is enough
and every deeper one gives the same (`adds_unique`). -/
def Adds (members : List Str) (t : T) (m r : TMap) : Prop := ∃ n, addType U members n t m = some r

/-- A field of `t`, possibly of a struct embedded in it. -/
inductive FieldOf : T → Field T → Prop
  | own {t f} : U.kind t = .struct → f ∈ U.fields t → f.anon = false → FieldOf t f
  | embedded {t g f} : U.kind t = .struct → g ∈ U.fields t → g.anon = true → FieldOf g.type f →
      FieldOf t f

/-- The name starts with an upper case letter or another character that has no upper case variant,
and is not one of the two names that are never shown. -/
def Exported (n : Str) : Prop :=
  n ≠ bs "MarshalJSON" ∧ n ≠ bs "MarshalYAML" ∧
    ∃ c s, n = c :: s ∧ c ≠ 95 ∧ ¬ (97 ≤ c ∧ c ≤ 122)

/-- A name is asked for: there is no list of members or it is one of them. -/
def Wanted (members : List Str) (n : Str) : Prop := members = [] ∨ n ∈ members

/-- `w` is the name given in the tag by `field=w`: the leftmost and longest such text. -/
def NamedBy (tag w : Str) : Prop :=
  ∃ a b, tag = a ++ (bs "field=" ++ (w ++ b)) ∧ w ≠ [] ∧ (∀ c ∈ w, wordChar c) ∧
    (∀ c, b.head? = some c → ¬ wordChar c) ∧
    ∀ a' x b', tag = a' ++ (bs "field=" ++ (x :: b')) → wordChar x → a.length ≤ a'.length

/-- The type is a list, map or pointer: the reference is to what it contains. -/
def HasElem (t : T) : Prop := U.kind t = .list ∨ U.kind t = .map ∨ U.kind t = .ptr

/-- The reference that stands for a value of type `t`. -/
def RefersTo (t : T) (r : Ref) : Prop :=
  (HasElem U t → r.target = canon U (U.elem t)) ∧ (¬ HasElem U t → r.target = canon U t) ∧
  (r.repeated = true ↔ U.kind t = .list)

/-- `n` is to be described as a member of `t` by the reference `r`. -/
inductive Member (members : List Str) (t : T) (n : Str) (r : Ref) : Prop
  | field (f : Field T) : FieldOf U t f → Exported f.name → Wanted members f.name →
      (NamedBy f.tag n ∨ (n = f.name ∧ ∀ w, ¬ NamedBy f.tag w)) →
      RefersTo U f.type r → r.tag = f.tag → Member members t n r
  | accessor (mt : Method T) (o : T) : mt ∈ U.methods t → mt.name = n → Exported n → Wanted members n →
      mt.ins = 0 → (mt.outs = [o] ∨ ∃ e, mt.outs = [o, e]) → RefersTo U o r → r.tag = [] →
      Member members t n r

/-- A list of types that has everything introspection of one of them can reach. -/
def Reachable (us : List T) : Prop :=
  ∀ t ∈ us, (HasElem U t → U.elem t ∈ us) ∧ (∀ f ∈ U.fields t, f.type ∈ us) ∧
    ∀ m ∈ U.methods t, ∀ o ∈ m.outs, o ∈ us

/-- References lead to descriptions, except those to types that are not reached through a list, map
or pointer. -/
def Linked (m : TMap) : Prop :=
  ∀ k d n ref, m.get k = some d → d.get n = some ref →
    (m.get ref.target).isSome ∨ ∃ u, ¬ HasElem U u ∧ canon U u = ref.target

/-! ## The model meets it -/

variable {U}

theorem get_setField (me f : Str) (r : Ref) (m : TMap) (k : Str) :
    (setField me f r m).get k = if k = me then (m.get k).map (·.set f r) else m.get k := by
  induction m with
  | nil => simp [setField, OD.get]
  | cons p m ih =>
    obtain ⟨k', v⟩ := p
    unfold setField at ih ⊢
    rw [List.map_cons]
    by_cases h1 : k' = me
    · subst h1
      simp only [if_true, OD.get]
      by_cases h2 : k' = k
      · subst h2; simp
      · rw [if_neg h2, ih, if_neg h2]
    · simp only [if_neg h1, OD.get]
      by_cases h2 : k' = k
      · subst h2; simp [h1]
      · rw [if_neg h2, ih, if_neg h2]

theorem hasElem_iff (t : T) : linked U t = true ↔ HasElem U t := by
  unfold linked HasElem
  cases U.kind t <;> simp

theorem refTo_spec (t : T) (tag : Str) : RefersTo U t (refTo U t tag) ∧ (refTo U t tag).tag = tag := by
  unfold RefersTo HasElem refTo
  cases h : U.kind t <;> simp

theorem refersTo_unique (t : T) (r : Ref) (h : RefersTo U t r) : r = refTo U t r.tag := by
  obtain ⟨tg, rp, tag⟩ := r
  revert h
  unfold RefersTo HasElem refTo
  cases h : U.kind t <;> cases rp <;> simp <;> intros <;> assumption

theorem exported_iff (n : Str) : isExported n = true ↔ Exported n := by
  unfold isExported Exported
  generalize bs "MarshalJSON" = j
  generalize bs "MarshalYAML" = y
  by_cases h : n = j ∨ n = y
  · rw [if_pos h]
    constructor
    · intro h; cases h
    · rintro ⟨h1, h2, -⟩
      rcases h with h | h
      · exact absurd h h1
      · exact absurd h h2
  · rw [if_neg h]
    simp only [not_or] at h
    cases n with
    | nil => simp
    | cons c s =>
      constructor
      · intro h'
        simp at h'
        refine ⟨h.1, h.2, c, s, rfl, h'.1, ?_⟩
        rintro ⟨a, b⟩
        rcases h'.2 with h | h
        · exact absurd a (UInt8.not_le.mpr h)
        · exact absurd b (UInt8.not_le.mpr h)
      · rintro ⟨-, -, c', s', h0, h1, h2⟩
        obtain ⟨rfl, rfl⟩ := List.cons.inj h0
        simp
        refine ⟨h1, ?_⟩
        by_cases a : 97 ≤ c
        · exact Or.inr (UInt8.not_le.mp fun b => h2 ⟨a, b⟩)
        · exact Or.inl (UInt8.not_le.mp a)

theorem wanted_iff (members : List Str) (n : Str) : listed members n = true ↔ Wanted members n := by
  unfold listed Wanted
  cases members <;> simp


theorem prefix_iff (p s : Str) : p.isPrefixOf s = true ↔ ∃ b, s = p ++ b := by
  rw [List.isPrefixOf_iff_prefix]
  constructor
  · rintro ⟨b, h⟩; exact ⟨b, h.symm⟩
  · rintro ⟨b, h⟩; exact ⟨b, h.symm⟩

theorem takeWhile_split (p : UInt8 → Bool) (l : Str) :
    ∃ b, l = l.takeWhile p ++ b ∧ (∀ c ∈ l.takeWhile p, p c) ∧ ∀ c, b.head? = some c → ¬ p c := by
  induction l with
  | nil => exact ⟨[], by simp⟩
  | cons x l ih =>
    by_cases h : p x = true
    · obtain ⟨b, h1, h2, h3⟩ := ih
      refine ⟨b, ?_, ?_, h3⟩
      · rw [List.takeWhile_cons_of_pos h, List.cons_append, ← h1]
      · rw [List.takeWhile_cons_of_pos h]
        intro c hc
        rcases List.mem_cons.mp hc with rfl | hc
        · exact h
        · exact h2 c hc
    · refine ⟨x :: l, ?_, ?_, ?_⟩
      · rw [List.takeWhile_cons_of_neg h]; rfl
      · rw [List.takeWhile_cons_of_neg h]; simp
      · intro c hc
        simp at hc; subst hc; exact h

/-- The match at the start, if there is one. -/
def tagHere (s : Str) : Option Str :=
  if (bs "field=").isPrefixOf s then
    match (s.drop 6).takeWhile wordChar with
    | [] => none
    | m => some m
  else none

theorem tagName_cons (c : UInt8) (s : Str) : tagName (c :: s) = (tagHere (c :: s)).or (tagName s) := by
  rw [tagName, tagHere]
  split
  · cases ((c :: s).drop 6).takeWhile wordChar <;> rfl
  · rfl

theorem tagHere_some (s w : Str) : tagHere s = some w ↔
    ∃ b, s = bs "field=" ++ (w ++ b) ∧ w ≠ [] ∧ (∀ c ∈ w, wordChar c) ∧ ∀ c, b.head? = some c → ¬ wordChar c := by
  unfold tagHere
  constructor
  · intro h
    split at h
    · rename_i hp
      obtain ⟨r, rfl⟩ := (prefix_iff _ _).mp hp
      obtain ⟨b, h1, h2, h3⟩ := takeWhile_split wordChar r
      have hd : (bs "field=" ++ r).drop 6 = r := rfl
      rw [hd] at h
      split at h
      · cases h
      · rename_i hn
        injection h with h
        subst h
        exact ⟨b, by rw [← h1], hn, h2, h3⟩
    · cases h
  · rintro ⟨b, rfl, h1, h2, h3⟩
    rw [if_pos ((prefix_iff _ _).mpr ⟨_, rfl⟩)]
    have hd : (bs "field=" ++ (w ++ b)).drop 6 = w ++ b := rfl
    rw [hd]
    have : (w ++ b).takeWhile wordChar = w := by
      rw [List.takeWhile_append_of_pos h2]
      cases b with
      | nil => simp
      | cons x b => rw [List.takeWhile_cons_of_neg (h3 x rfl)]; simp
    rw [this]
    cases w with
    | nil => exact absurd rfl h1
    | cons x w => rfl

theorem tagHere_none (s : Str) (h : tagHere s = none) (x : UInt8) (b : Str) (hx : wordChar x) :
    s ≠ bs "field=" ++ (x :: b) := by
  rintro rfl
  unfold tagHere at h
  rw [if_pos ((prefix_iff _ _).mpr ⟨_, rfl⟩)] at h
  have hd : (bs "field=" ++ (x :: b)).drop 6 = x :: b := rfl
  rw [hd, List.takeWhile_cons_of_pos hx] at h
  cases h

theorem tagName_some (s : Str) : ∀ w, tagName s = some w → NamedBy s w := by
  induction s with
  | nil => intro w h; cases h
  | cons c s ih =>
    intro w h
    rw [tagName_cons] at h
    cases h1 : tagHere (c :: s) with
    | some v =>
      rw [h1] at h
      injection h with h; subst h
      obtain ⟨b, hb, h2, h3, h4⟩ := (tagHere_some _ _).mp h1
      exact ⟨[], b, hb, h2, h3, h4, fun _ _ _ _ _ => Nat.zero_le _⟩
    | none =>
      rw [h1] at h
      obtain ⟨a, b, hb, h2, h3, h4, h5⟩ := ih w h
      refine ⟨c :: a, b, by rw [hb]; rfl, h2, h3, h4, ?_⟩
      intro a' x b' he hx
      cases a' with
      | nil => exact absurd he (tagHere_none _ h1 x b' hx)
      | cons y a' =>
        have := (List.cons.inj he).2
        exact Nat.succ_le_succ (h5 a' x b' this hx)

theorem tagName_none (s : Str) (h : tagName s = none) (a : Str) (x : UInt8) (b : Str) (hx : wordChar x) :
    s ≠ a ++ (bs "field=" ++ (x :: b)) := by
  induction s generalizing a with
  | nil =>
    intro he
    have := congrArg List.length he
    simp at this
  | cons c s ih =>
    rw [tagName_cons] at h
    cases h1 : tagHere (c :: s) with
    | some v => rw [h1] at h; cases h
    | none =>
      rw [h1] at h
      intro he
      cases a with
      | nil => exact tagHere_none _ h1 x b hx he
      | cons y a => exact ih h a (List.cons.inj he).2

theorem namedBy_unique {s v w : Str} (h1 : NamedBy s v) (h2 : NamedBy s w) : v = w := by
  obtain ⟨a, b, e1, n1, c1, d1, l1⟩ := h1
  obtain ⟨a', b', e2, n2, c2, d2, l2⟩ := h2
  obtain ⟨x, v', rfl⟩ := List.exists_cons_of_ne_nil n1
  obtain ⟨y, w', rfl⟩ := List.exists_cons_of_ne_nil n2
  have hl : a.length = a'.length :=
    Nat.le_antisymm (l1 a' y (w' ++ b') e2 (c2 y (by simp))) (l2 a x (v' ++ b) e1 (c1 x (by simp)))
  have he := e1.symm.trans e2
  obtain ⟨-, he⟩ := List.append_inj he hl
  have he := List.append_cancel_left he
  have tk : ∀ (w b : Str), (∀ c ∈ w, wordChar c) → (∀ c, b.head? = some c → ¬ wordChar c) →
      (w ++ b).takeWhile wordChar = w := by
    intro w b h2 h3
    rw [List.takeWhile_append_of_pos h2]
    cases b with
    | nil => simp
    | cons x b => rw [List.takeWhile_cons_of_neg (h3 x rfl)]; simp
  rw [← tk _ b c1 d1, ← tk _ b' c2 d2, he]

/-- The name of a field in a description. -/
theorem tag_spec (tag n name : Str) :
    (tagName tag).getD name = n ↔ (NamedBy tag n ∨ (n = name ∧ ∀ w, ¬ NamedBy tag w)) := by
  cases h : tagName tag with
  | some w =>
    have hw := tagName_some tag w h
    simp only [Option.getD_some]
    constructor
    · rintro rfl; exact Or.inl hw
    · rintro (h | ⟨-, h⟩)
      · exact namedBy_unique hw h
      · exact absurd hw (h w)
  | none =>
    have hno : ∀ w, ¬ NamedBy tag w := by
      rintro w ⟨a, b, e, n, c, -, -⟩
      obtain ⟨x, w', rfl⟩ := List.exists_cons_of_ne_nil n
      exact tagName_none tag h a x (w' ++ b) (c x (by simp)) e
    simp only [Option.getD_none]
    constructor
    · rintro rfl; exact Or.inr ⟨rfl, hno⟩
    · rintro (h | ⟨h, -⟩)
      · exact absurd h (hno n)
      · exact h.symm

/-! ## Entries -/

/-- The entry of a field or of a method. -/
def FieldEntry (members : List Str) (t : T) (e : Entry T) : Prop :=
  ∃ f, FieldOf U t f ∧ Exported f.name ∧ Wanted members f.name ∧
    (tagName f.tag).getD f.name = e.name ∧ e.type = f.type ∧ e.tag = f.tag

theorem fieldEntries_mem (members : List Str) (n : Nat) (t : T) (hn : U.depth t < n) (e : Entry T) :
    e ∈ fieldEntries U members n t ↔ FieldEntry (U := U) members t e := by
  induction n generalizing t with
  | zero => exact absurd hn (Nat.not_lt_zero _)
  | succ n ih =>
    unfold fieldEntries
    by_cases hs : U.kind t = .struct
    · rw [if_pos hs, List.mem_flatMap]
      constructor
      · rintro ⟨f, hf, he⟩
        by_cases ha : f.anon = true
        · rw [if_pos ha] at he
          by_cases hk : U.kind f.type = .struct
          · obtain ⟨g, hg, hr⟩ := (ih f.type (by have := U.embeds t f hs hf hk; omega)).mp he
            exact ⟨g, .embedded hs hf ha hg, hr⟩
          · cases n with
            | zero => simp [fieldEntries] at he
            | succ n => rw [fieldEntries, if_neg hk] at he; cases he
        · rw [if_neg ha] at he
          split at he
          · rename_i hc
            simp only [Bool.and_eq_true] at hc
            obtain rfl := List.mem_singleton.mp he
            exact ⟨f, .own hs hf (by simpa using ha), (exported_iff _).mp hc.1, (wanted_iff _ _).mp hc.2,
              rfl, rfl, rfl⟩
          · cases he
      · rintro ⟨f, hf, h1, h2, h3, h4, h5⟩
        cases hf with
        | own _ hm ha =>
          refine ⟨f, hm, ?_⟩
          rw [if_neg (by simp [ha]), if_pos (by
            rw [Bool.and_eq_true]; exact ⟨(exported_iff _).mpr h1, (wanted_iff _ _).mpr h2⟩)]
          obtain ⟨en, et, eg⟩ := e
          simp only at h3 h4 h5
          subst h3 h4 h5
          exact List.mem_singleton.mpr rfl
        | @embedded _ g _ _ hm ha hf =>
          refine ⟨g, hm, ?_⟩
          rw [if_pos ha]
          have hk : U.kind g.type = .struct := by cases hf <;> assumption
          exact (ih g.type (by have := U.embeds t g hs hm hk; omega)).mpr ⟨f, hf, h1, h2, h3, h4, h5⟩
    · rw [if_neg hs]
      constructor
      · intro h; cases h
      · rintro ⟨f, hf, -⟩
        cases hf <;> contradiction

theorem methodEntries_mem (members : List Str) (t : T) (e : Entry T) :
    e ∈ methodEntries U members t ↔ ∃ mt ∈ U.methods t, mt.name = e.name ∧ Exported mt.name ∧
      Wanted members mt.name ∧ mt.ins = 0 ∧ (mt.outs = [e.type] ∨ ∃ x, mt.outs = [e.type, x]) ∧ e.tag = [] := by
  unfold methodEntries
  rw [List.mem_flatMap]
  constructor
  · rintro ⟨mt, hm, he⟩
    split at he
    · rename_i hc
      simp only [Bool.and_eq_true, beq_iff_eq] at hc
      have base := And.intro ((exported_iff _).mp hc.1.1) (And.intro ((wanted_iff _ _).mp hc.1.2) hc.2)
      split at he
      · rename_i o ho
        obtain rfl := List.mem_singleton.mp he
        exact ⟨mt, hm, rfl, base.1, base.2.1, base.2.2, Or.inl ho, rfl⟩
      · rename_i o x ho
        obtain rfl := List.mem_singleton.mp he
        exact ⟨mt, hm, rfl, base.1, base.2.1, base.2.2, Or.inr ⟨x, ho⟩, rfl⟩
      · cases he
    · cases he
  · rintro ⟨mt, hm, h1, h2, h3, h4, h5, h6⟩
    refine ⟨mt, hm, ?_⟩
    rw [if_pos (by
      simp only [Bool.and_eq_true, beq_iff_eq]
      exact ⟨⟨(exported_iff _).mpr h2, (wanted_iff _ _).mpr h3⟩, h4⟩)]
    obtain ⟨en, et, eg⟩ := e
    simp only at h1 h5 h6
    subst h1 h6
    rcases h5 with h | ⟨x, h⟩
    · rw [h]; exact List.mem_singleton.mpr rfl
    · rw [h]; exact List.mem_singleton.mpr rfl

theorem entries_mem (members : List Str) (t : T) (e : Entry T) (he : e ∈ entries U members t) :
    Member U members t e.name (refTo U e.type e.tag) := by
  unfold entries at he
  rcases List.mem_append.mp he with he | he
  · obtain ⟨f, h1, h2, h3, h4, h5, h6⟩ := (fieldEntries_mem members _ t (Nat.lt_succ_self _) e).mp he
    have := refTo_spec (U := U) e.type e.tag
    exact .field f h1 h2 h3 ((tag_spec _ _ _).mp h4) (h5 ▸ this.1) (this.2.trans h6)
  · obtain ⟨mt, hm, h1, h2, h3, h4, h5, h6⟩ := (methodEntries_mem members t e).mp he
    have := refTo_spec (U := U) e.type e.tag
    exact .accessor mt e.type hm h1 (h1 ▸ h2) (h1 ▸ h3) h4 h5 this.1 (this.2.trans h6)

theorem mem_entries (members : List Str) (t : T) (n : Str) (r : Ref) (h : Member U members t n r) :
    ∃ e ∈ entries U members t, e.name = n ∧ refTo U e.type e.tag = r := by
  unfold entries
  cases h with
  | field f h1 h2 h3 h4 h5 h6 =>
    refine ⟨⟨n, f.type, f.tag⟩, List.mem_append_left _
      ((fieldEntries_mem members _ t (Nat.lt_succ_self _) _).mpr
        ⟨f, h1, h2, h3, (tag_spec _ _ _).mpr h4, rfl, rfl⟩), rfl, ?_⟩
    rw [refersTo_unique f.type r h5, h6]
  | accessor mt o hm h1 h2 h3 h4 h5 h6 h7 =>
    refine ⟨⟨n, o, []⟩, List.mem_append_right _
      ((methodEntries_mem members t _).mpr
        ⟨mt, hm, h1, by rw [h1]; exact h2, by rw [h1]; exact h3, h4, h5, rfl⟩), rfl, ?_⟩
    rw [refersTo_unique o r h6, h7]

/-! ## The walk -/

/-- The description that a list of entries makes. -/
def describe (es : List (Entry T)) (d : OD Ref) : OD Ref :=
  es.foldl (fun d e => d.set e.name (refTo U e.type e.tag)) d

theorem describe_get (es : List (Entry T)) (d : OD Ref) (n : Str) (r : Ref)
    (h : (describe (U := U) es d).get n = some r) :
    d.get n = some r ∨ ∃ e ∈ es, e.name = n ∧ refTo U e.type e.tag = r := by
  induction es generalizing d with
  | nil => exact Or.inl h
  | cons e es ih =>
    rcases ih _ h with h | ⟨x, hx, hr⟩
    · by_cases hn : n = e.name
      · subst hn
        rw [OD.get_set_self] at h
        injection h with h
        exact Or.inr ⟨e, by simp, rfl, h⟩
      · rw [OD.get_set_ne _ _ hn] at h
        exact Or.inl h
    · exact Or.inr ⟨x, List.mem_cons_of_mem _ hx, hr⟩

theorem describe_has (es : List (Entry T)) (d : OD Ref) (n : Str)
    (h : (d.get n).isSome ∨ ∃ e ∈ es, e.name = n) : ((describe (U := U) es d).get n).isSome := by
  induction es generalizing d with
  | nil =>
    rcases h with h | ⟨e, he, -⟩
    · exact h
    · cases he
  | cons e es ih =>
    apply ih
    by_cases hn : n = e.name
    · subst hn; left; rw [OD.get_set_self]; rfl
    · rw [OD.get_set_ne _ _ hn]
      rcases h with h | ⟨x, hx, hr⟩
      · exact Or.inl h
      · rcases List.mem_cons.mp hx with rfl | hx
        · exact absurd hr.symm hn
        · exact Or.inr ⟨x, hx, hr⟩

/-- A step that leaves descriptions as they are. -/
def Keeps (m r : TMap) : Prop := ∀ k d, m.get k = some d → r.get k = some d

theorem keeps_set {m : TMap} {k : Str} (h : m.get k = none) (d : OD Ref) : Keeps m (m.set k d) := by
  intro k' d' h'
  rw [OD.get_set_ne _ _ (by rintro rfl; rw [h] at h'; cases h')]
  exact h'

theorem addEntries_spec {go : T → TMap → Option TMap} (hgo : ∀ t m r, go t m = some r → Keeps m r)
    (me : Str) (es : List (Entry T)) : ∀ (m r : TMap) (d : OD Ref), m.get me = some d →
      addEntries U go me es m = some r →
      r.get me = some (describe (U := U) es d) ∧ ∀ k d', k ≠ me → m.get k = some d' → r.get k = some d' := by
  induction es with
  | nil =>
    intro m r d hd h
    rw [addEntries] at h
    injection h with h; subst h
    exact ⟨hd, fun _ _ _ h => h⟩
  | cons e es ih =>
    intro m r d hd h
    rw [addEntries] at h
    obtain ⟨m1, h1, h2⟩ := Option.bind_eq_some_iff.mp h
    have hk : Keeps m m1 := by
      split at h1
      · exact hgo _ _ _ h1
      · injection h1 with h1; subst h1; exact fun _ _ h => h
    obtain ⟨h3, h4⟩ := ih _ r (d.set e.name (refTo U e.type e.tag)) (by
      rw [get_setField, if_pos rfl, hk _ _ hd]; rfl) h2
    refine ⟨h3, ?_⟩
    intro k d' hne hm
    apply h4 k d' hne
    rw [get_setField, if_neg hne]
    exact hk _ _ hm

theorem addType_keeps (members : List Str) (n : Nat) (t : T) (m r : TMap)
    (h : addType U members n t m = some r) : Keeps m r := by
  induction n generalizing t m r with
  | zero => cases h
  | succ n ih =>
    rw [addType] at h
    split at h
    · injection h with h; subst h; exact fun _ _ h => h
    · rename_i hn
      have hn : m.get (canon U t) = none := by simpa using hn
      intro k d hd
      have hne : k ≠ canon U t := by rintro rfl; rw [hn] at hd; cases hd
      exact (addEntries_spec ih _ _ _ r [] (OD.get_set_self _ _ _) h).2 k d hne (keeps_set hn _ _ _ hd)

theorem addType_new (members : List Str) (n : Nat) (t : T) (m r : TMap)
    (h : addType U members n t m = some r) (hn : m.get (canon U t) = none) :
    r.get (canon U t) = some (describe (U := U) (entries U members t) []) := by
  cases n with
  | zero => cases h
  | succ n =>
    rw [addType, if_neg (by rw [hn]; simp)] at h
    exact (addEntries_spec (addType_keeps members n) _ _ _ r [] (OD.get_set_self _ _ _) h).1

theorem addType_has (members : List Str) (n : Nat) (t : T) (m r : TMap)
    (h : addType U members n t m = some r) : (r.get (canon U t)).isSome := by
  cases hm : m.get (canon U t) with
  | none => rw [addType_new members n t m r h hm]; rfl
  | some d => rw [addType_keeps members n t m r h _ _ hm]; rfl

theorem addEntries_mono {go go' : T → TMap → Option TMap} (hgo : ∀ t m r, go t m = some r → go' t m = some r)
    (me : Str) (es : List (Entry T)) : ∀ (m r : TMap),
      addEntries U go me es m = some r → addEntries U go' me es m = some r := by
  induction es with
  | nil => intro m r h; exact h
  | cons e es ih =>
    intro m r h
    rw [addEntries] at h ⊢
    obtain ⟨m1, h1, h2⟩ := Option.bind_eq_some_iff.mp h
    refine Option.bind_eq_some_iff.mpr ⟨m1, ?_, ih _ _ h2⟩
    split at h1
    · rename_i hl; rw [if_pos hl]; exact hgo _ _ _ h1
    · rename_i hl; rw [if_neg hl]; exact h1

theorem addType_succ (members : List Str) (n : Nat) (t : T) (m r : TMap)
    (h : addType U members n t m = some r) : addType U members (n + 1) t m = some r := by
  induction n generalizing t m r with
  | zero => cases h
  | succ n ih =>
    rw [addType] at h ⊢
    split
    · rename_i hc; rw [if_pos hc] at h; exact h
    · rename_i hc; rw [if_neg hc] at h; exact addEntries_mono ih _ _ _ _ h

theorem addType_mono (members : List Str) {n n' : Nat} (hn : n ≤ n') (t : T) (m r : TMap)
    (h : addType U members n t m = some r) : addType U members n' t m = some r := by
  induction hn with
  | refl => exact h
  | step _ ih => exact addType_succ members _ t m r ih

theorem adds_unique {members : List Str} {t : T} {m r r' : TMap} (h : Adds U members t m r)
    (h' : Adds U members t m r') : r = r' := by
  obtain ⟨n, h⟩ := h
  obtain ⟨n', h'⟩ := h'
  have h1 := addType_mono members (Nat.le_max_left n n') t m r h
  have h2 := addType_mono members (Nat.le_max_right n n') t m r' h'
  exact Option.some.inj (h1.symm.trans h2)

/-! ## The end of the walk -/

/-- The types of the list that are not described. -/
def missing (us : List T) (m : TMap) : Nat := us.countP fun u => (m.get (canon U u)).isNone

theorem missing_le (us : List T) {m r : TMap} (h : ∀ k, (m.get k).isSome → (r.get k).isSome) :
    missing (U := U) us r ≤ missing (U := U) us m := by
  unfold missing
  apply List.countP_mono_left
  intro u _ hu
  cases hm : m.get (canon U u) with
  | none => rfl
  | some d =>
    have := h (canon U u) (by rw [hm]; rfl)
    cases hr : r.get (canon U u) with
    | none => rw [hr] at this; cases this
    | some d => rw [hr] at hu; cases hu

theorem missing_lt (us : List T) {m : TMap} {t : T} (ht : t ∈ us) (hn : m.get (canon U t) = none) (d : OD Ref) :
    missing (U := U) us (m.set (canon U t) d) < missing (U := U) us m := by
  unfold missing
  induction us with
  | nil => cases ht
  | cons u us ih =>
    rw [List.countP_cons, List.countP_cons]
    by_cases hc : canon U u = canon U t
    · rw [hc, OD.get_set_self, hn]
      have : missing (U := U) us (m.set (canon U t) d) ≤ missing (U := U) us m :=
        missing_le us fun k hk => by
          cases hm : m.get k with
          | none => rw [hm] at hk; cases hk
          | some d' => rw [keeps_set hn d k d' hm]; rfl
      unfold missing at this
      simp only [Option.isNone_some, Option.isNone_none, Bool.false_eq_true, if_false, if_true]
      omega
    · rw [OD.get_set_ne _ _ hc]
      rcases List.mem_cons.mp ht with rfl | ht
      · exact absurd rfl hc
      · have := ih ht
        omega

theorem fieldOf_mem {us : List T} (hus : Reachable U us) {t : T} {f : Field T} (h : FieldOf U t f) (ht : t ∈ us) :
    f.type ∈ us := by
  induction h with
  | own _ hf _ => exact (hus _ ht).2.1 _ hf
  | embedded _ hg _ _ ih => exact ih ((hus _ ht).2.1 _ hg)

theorem entries_reach {us : List T} (hus : Reachable U us) (members : List Str) {t : T} (ht : t ∈ us)
    (e : Entry T) (he : e ∈ entries U members t) : e.type ∈ us := by
  unfold entries at he
  rcases List.mem_append.mp he with he | he
  · obtain ⟨f, h1, -, -, -, h5, -⟩ := (fieldEntries_mem members _ t (Nat.lt_succ_self _) e).mp he
    rw [h5]; exact fieldOf_mem hus h1 ht
  · obtain ⟨mt, hm, -, -, -, -, h5, -⟩ := (methodEntries_mem members t e).mp he
    apply (hus _ ht).2.2 mt hm
    rcases h5 with h | ⟨x, h⟩ <;> rw [h] <;> simp

theorem setField_has (me f : Str) (r : Ref) (m : TMap) (k : Str) :
    ((setField me f r m).get k).isSome = (m.get k).isSome := by
  rw [get_setField]
  split
  · cases m.get k <;> rfl
  · rfl

theorem addEntries_ends {us : List T} (hus : Reachable U us) {members : List Str} {n : Nat}
    (ih : ∀ t ∈ us, ∀ m, missing (U := U) us m < n → ∃ r, addType U members n t m = some r)
    (me : Str) (es : List (Entry T)) (hes : ∀ e ∈ es, e.type ∈ us) (m : TMap)
    (hm : missing (U := U) us m < n) : ∃ r, addEntries U (addType U members n) me es m = some r := by
  induction es generalizing m with
  | nil => exact ⟨m, rfl⟩
  | cons e es ihe =>
    have h1 : ∃ m1, (if linked U e.type then addType U members n (U.elem e.type) m else some m) = some m1 ∧
        Keeps m m1 := by
      split
      · rename_i hl
        have := (hus _ (hes e (by simp))).1 ((hasElem_iff _).mp hl)
        obtain ⟨r, hr⟩ := ih _ this m hm
        exact ⟨r, hr, addType_keeps members n _ _ _ hr⟩
      · exact ⟨m, rfl, fun _ _ h => h⟩
    obtain ⟨m1, h1, hk⟩ := h1
    have hle : missing (U := U) us (setField me e.name (refTo U e.type e.tag) m1) ≤ missing (U := U) us m :=
      missing_le us fun k hk' => by
        rw [setField_has]
        cases hmk : m.get k with
        | none => rw [hmk] at hk'; cases hk'
        | some d => rw [hk k d hmk]; rfl
    obtain ⟨r, hr⟩ := ihe (fun e he => hes e (List.mem_cons_of_mem _ he)) _ (Nat.lt_of_le_of_lt hle hm)
    refine ⟨r, ?_⟩
    rw [addEntries, h1]
    exact hr

theorem addType_ends {us : List T} (hus : Reachable U us) (members : List Str) (n : Nat) (t : T) (ht : t ∈ us)
    (m : TMap) (hm : missing (U := U) us m < n) : ∃ r, addType U members n t m = some r := by
  induction n generalizing t m with
  | zero => exact absurd hm (Nat.not_lt_zero _)
  | succ n ih =>
    rw [addType]
    split
    · exact ⟨m, rfl⟩
    · rename_i hn
      have hn : m.get (canon U t) = none := by simpa using hn
      have := missing_lt us ht hn []
      exact addEntries_ends hus (fun t ht m hm => ih t ht m hm) _ _ (entries_reach hus members ht) _
        (Nat.lt_of_lt_of_le this (Nat.lt_succ_iff.mp hm))

/-! ## References lead to descriptions -/

theorem linked_set {m : TMap} {k : Str} (hl : Linked U m) (hk : m.get k = none) : Linked U (m.set k []) := by
  intro k' d n ref hd hr
  by_cases h : k' = k
  · subst h
    rw [OD.get_set_self] at hd
    injection hd with hd; subst hd
    cases hr
  · rw [OD.get_set_ne _ _ h] at hd
    rcases hl k' d n ref hd hr with h | h
    · left
      cases hm : m.get ref.target with
      | none => rw [hm] at h; cases h
      | some d' => rw [keeps_set hk [] _ _ hm]; rfl
    · exact Or.inr h

theorem linked_setField {m : TMap} (hl : Linked U m) (me f : Str) (r : Ref)
    (hr : (m.get r.target).isSome ∨ ∃ u, ¬ HasElem U u ∧ canon U u = r.target) :
    Linked U (setField me f r m) := by
  intro k d n ref hd hn
  rw [get_setField] at hd
  rw [setField_has]
  split at hd
  · obtain ⟨d0, h0, rfl⟩ := Option.map_eq_some_iff.mp hd
    by_cases h : n = f
    · subst h
      rw [OD.get_set_self] at hn
      injection hn with hn; subst hn
      exact hr
    · rw [OD.get_set_ne _ _ h] at hn
      exact hl k d0 n ref h0 hn
  · exact hl k d n ref hd hn

theorem refTo_linked (t : T) (tag : Str) (m : TMap) (h : HasElem U t → (m.get (canon U (U.elem t))).isSome) :
    (m.get (refTo U t tag).target).isSome ∨ ∃ u, ¬ HasElem U u ∧ canon U u = (refTo U t tag).target := by
  obtain ⟨h1, h2, -⟩ := (refTo_spec (U := U) t tag).1
  by_cases hh : HasElem U t
  · left; rw [h1 hh]; exact h hh
  · right; exact ⟨t, hh, (h2 hh).symm⟩

theorem addEntries_linked {go : T → TMap → Option TMap}
    (hgo : ∀ t m r, go t m = some r → Linked U m → Linked U r ∧ (r.get (canon U t)).isSome)
    (me : Str) (es : List (Entry T)) : ∀ (m r : TMap), Linked U m → addEntries U go me es m = some r →
      Linked U r := by
  induction es with
  | nil =>
    intro m r hl h
    rw [addEntries] at h
    injection h with h; subst h; exact hl
  | cons e es ih =>
    intro m r hl h
    rw [addEntries] at h
    obtain ⟨m1, h1, h2⟩ := Option.bind_eq_some_iff.mp h
    apply ih _ r _ h2
    split at h1
    · obtain ⟨h3, h4⟩ := hgo _ _ _ h1 hl
      exact linked_setField h3 _ _ _ (refTo_linked _ _ _ fun _ => h4)
    · rename_i hn
      injection h1 with h1; subst h1
      exact linked_setField hl _ _ _ (refTo_linked _ _ _ fun h => absurd ((hasElem_iff _).mpr h) hn)

theorem addType_linked (members : List Str) (n : Nat) (t : T) (m r : TMap)
    (h : addType U members n t m = some r) (hl : Linked U m) : Linked U r := by
  induction n generalizing t m r with
  | zero => cases h
  | succ n ih =>
    rw [addType] at h
    split at h
    · injection h with h; subst h; exact hl
    · rename_i hn
      have hn : m.get (canon U t) = none := by simpa using hn
      exact addEntries_linked (fun t m r h hl => ⟨ih t m r h hl, addType_has members n t m r h⟩) _ _ _ r
        (linked_set hl hn) h

/-! ## Theorems -/

variable (U)

/-- C69: introspection of a value always ends, and with one result: also for types that refer to
themselves, whatever was described before. -/
theorem C69_finishes (us : List T) (hus : Reachable U us) (members : List Str) (t : T) (ht : t ∈ us) (m : TMap) :
    ∃ r, Adds U members t m r ∧ ∀ r', Adds U members t m r' → r' = r := by
  obtain ⟨r, hr⟩ := addType_ends hus members _ t ht m (Nat.lt_succ_self _)
  exact ⟨r, ⟨_, hr⟩, fun r' h => adds_unique h ⟨_, hr⟩⟩

/-- C69: descriptions made before stay as they are; a type whose name is new is described by exactly
its members: the exported fields, also those of embedded structs, and the accessor methods. -/
theorem C69_described (members : List Str) (t : T) (m r : TMap) (h : Adds U members t m r) :
    (∀ k d, m.get k = some d → r.get k = some d) ∧
    (m.get (canon U t) = none → ∃ d, r.get (canon U t) = some d ∧
      (∀ n, (d.get n).isSome ↔ ∃ ref, Member U members t n ref) ∧
      ∀ n ref, d.get n = some ref → Member U members t n ref) := by
  obtain ⟨k, h⟩ := h
  refine ⟨addType_keeps members k t m r h, fun hn => ?_⟩
  have hg : ∀ n ref, (describe (U := U) (entries U members t) []).get n = some ref → Member U members t n ref := by
    intro n ref hd
    rcases describe_get _ _ _ _ hd with h | ⟨e, he, h1, h2⟩
    · cases h
    · subst h1 h2; exact entries_mem members t e he
  refine ⟨_, addType_new members k t m r h hn, fun n => ⟨fun hs => ?_, ?_⟩, hg⟩
  · obtain ⟨ref, hr⟩ := Option.isSome_iff_exists.mp hs
    exact ⟨ref, hg n ref hr⟩
  · rintro ⟨ref, hr⟩
    obtain ⟨e, he, h1, -⟩ := mem_entries members t n ref hr
    exact describe_has _ _ _ (Or.inr ⟨e, he, h1⟩)

/-- C69, what is true of "every reference leads to a description": it does if it was made for a list,
map or pointer.  See `C69_by_value_refuted` for the others. -/
theorem C69_linked_partial (members : List Str) (t : T) (m r : TMap) (h : Adds U members t m r)
    (hm : Linked U m) : Linked U r ∧ (r.get (canon U t)).isSome := by
  obtain ⟨k, h⟩ := h
  exact ⟨addType_linked members k t m r h hm, addType_has members k t m r h⟩

/-- C69: the name in a tag is made of letters, digits and underscores (the `wordChar` of the
specification above). -/
theorem C69_letters (c : UInt8) : wordChar c = true ↔
    c ∈ bs "abcdefghijklmnopqrstuvwxyzABCDEFGHIJKLMNOPQRSTUVWXYZ0123456789_" := by
  have h : ∀ i : Fin 256, wordChar (UInt8.ofNat i.val) = true ↔
      UInt8.ofNat i.val ∈ bs "abcdefghijklmnopqrstuvwxyzABCDEFGHIJKLMNOPQRSTUVWXYZ0123456789_" := by
    decide +kernel
  have := h ⟨c.toNat, c.toNat_lt⟩
  simpa using this

example : tagName (bs "required,field=arg_2,doc=x") = some (bs "arg_2") := by decide +kernel

/-- C69: a pointer to a value is described as the value is, under the name of its type; all other
values are described as they are. -/
theorem C69_value (members : List Str) (n : Nat) (t : T) (m : TMap) (name : Str) (r : TMap)
    (h : addValue U members n t m = some (name, r)) :
    (U.kind t = .ptr → name = canon U (U.elem t) ∧ Adds U members (U.elem t) m r) ∧
    (U.kind t ≠ .ptr → name = canon U t ∧ Adds U members t m r) := by
  unfold addValue at h
  constructor
  · intro hk
    simp only [hk, if_true, Option.map_eq_some_iff] at h
    obtain ⟨r', h1, h2⟩ := h
    injection h2 with h2 h3
    exact ⟨h2.symm, n, h3 ▸ h1⟩
  · intro hk
    simp only [hk, if_false, Option.map_eq_some_iff] at h
    obtain ⟨r', h1, h2⟩ := h
    injection h2 with h2 h3
    exact ⟨h2.symm, n, h3 ▸ h1⟩

theorem linked_empty : Linked U [] := by
  intro k d n ref h
  cases h

/-! ## What is not so -/

/-- Some types of a program:
`type In struct { B int }`, `type Out struct { A *In }`, `type Val struct { A In }`,
`type Lst struct { As []*In; A *In }`, `type Node struct { Next *Node; In }`, with a method
`func (*In) Size() (int, error)`. -/
inductive G where
  | int | err | inn | pin | lpin | out | val | lst | node | pnode
  deriving DecidableEq

/-- What the reflect package says about them. -/
def gTypes : Types G where
  kind
    | .inn | .out | .val | .lst | .node => .struct
    | .pin | .pnode => .ptr
    | .lpin => .list
    | .int | .err => .other
  elem
    | .pin => .inn
    | .lpin => .pin
    | .pnode => .node
    | t => t
  text
    | .int => bs "int"
    | .err => bs "error"
    | .inn => bs "main.In"
    | .pin => bs "*main.In"
    | .lpin => bs "[]*main.In"
    | .out => bs "main.Out"
    | .val => bs "main.Val"
    | .lst => bs "main.Lst"
    | .node => bs "main.Node"
    | .pnode => bs "*main.Node"
  fields
    | .inn => [⟨bs "B", false, .int, []⟩, ⟨bs "c", false, .int, []⟩]
    | .out => [⟨bs "A", false, .pin, bs "field=first"⟩]
    | .val => [⟨bs "A", false, .inn, []⟩]
    | .lst => [⟨bs "As", false, .lpin, []⟩, ⟨bs "A", false, .pin, []⟩]
    | .node => [⟨bs "Next", false, .pnode, []⟩, ⟨bs "In", true, .inn, []⟩]
    | _ => []
  methods
    | .inn | .pin => [⟨bs "Set", 1, [.err]⟩, ⟨bs "Size", 0, [.int, .err]⟩]
    | _ => []
  depth
    | .val | .node => 1
    | _ => 0
  embeds := by
    intro t f hk hf hs
    cases t <;> simp at hf <;> rcases hf with rfl | rfl <;> simp_all

/-- The types are closed: `C69_finishes` is about them. -/
example : Reachable gTypes [.int, .err, .inn, .pin, .lpin, .out, .val, .lst, .node, .pnode] := by
  intro t _
  refine ⟨fun _ => ?_, fun f _ => ?_, fun m _ o _ => ?_⟩
  · cases t <;> decide
  · generalize f.type = x; cases x <;> decide
  · cases o <;> decide

/-- A pointer leads to the description of its struct; the tag renames the field; accessors and
exported fields are members and others are not. -/
example : addType gTypes [] 5 .out [] = some
    [(bs "main.Out", [(bs "first", ⟨bs "main.In", false, bs "field=first"⟩)]),
     (bs "main.In", [(bs "B", ⟨bs "int", false, []⟩), (bs "Size", ⟨bs "int", false, []⟩)])] := by
  decide +kernel

/-- A type that refers to itself, with an embedded struct. -/
example : addType gTypes [] 5 .node [] = some
    [(bs "main.Node", [(bs "Next", ⟨bs "main.Node", false, []⟩), (bs "B", ⟨bs "int", false, []⟩)])] := by
  decide +kernel

/-- C69 "every reference to a struct leads to a description" is false: a struct that is a field by
value is referred to and not described. -/
theorem C69_by_value_refuted : ∃ r d ref, Adds gTypes [] .val [] r ∧ r.get (bs "main.Val") = some d ∧
    d.get (bs "A") = some ref ∧ ref.target = canon gTypes .inn ∧ gTypes.kind .inn = .struct ∧
    r.get ref.target = none :=
  ⟨[(bs "main.Val", [(bs "A", ⟨bs "main.In", false, []⟩)])], [(bs "A", ⟨bs "main.In", false, []⟩)],
    ⟨bs "main.In", false, []⟩, ⟨1, by decide +kernel⟩, by decide +kernel, by decide +kernel, by decide +kernel,
    rfl, by decide +kernel⟩

/-- C69 "every description has the fields of its struct" is false: a list of pointers describes the
struct by its methods only, and this stays so although a pointer to the struct is met afterwards. -/
theorem C69_pointer_list_refuted : ∃ r d, Adds gTypes [] .lst [] r ∧
    r.get (canon gTypes .inn) = some d ∧ (∃ ref, Member gTypes [] .inn (bs "B") ref) ∧ d.get (bs "B") = none :=
  ⟨[(bs "main.Lst", [(bs "As", ⟨bs "main.In", true, []⟩), (bs "A", ⟨bs "main.In", false, []⟩)]),
     (bs "main.In", [(bs "Size", ⟨bs "int", false, []⟩)])], [(bs "Size", ⟨bs "int", false, []⟩)],
    ⟨2, by decide +kernel⟩, by decide +kernel,
    ⟨⟨bs "int", false, []⟩, .field ⟨bs "B", false, .int, []⟩ (.own rfl (List.mem_cons_self) rfl)
      ((exported_iff _).mp (by decide +kernel)) (Or.inl rfl)
      ((tag_spec _ _ _).mp (by decide +kernel)) (refTo_spec (U := gTypes) G.int []).1 rfl⟩, by decide +kernel⟩

/-- C69 "the description of a type does not depend on the value that led to it" is false: the names of
the members of the outer value also filter the fields of the types it refers to. -/
theorem C69_members_refuted : ∃ r d r' d', Adds gTypes [bs "A"] .out [] r ∧
    r.get (canon gTypes .inn) = some d ∧ d = [] ∧
    Adds gTypes [] .inn [] r' ∧ r'.get (canon gTypes .inn) = some d' ∧ (d'.get (bs "B")).isSome :=
  ⟨[(bs "main.Out", [(bs "first", ⟨bs "main.In", false, bs "field=first"⟩)]), (bs "main.In", [])], [],
    [(bs "main.In", [(bs "B", ⟨bs "int", false, []⟩), (bs "Size", ⟨bs "int", false, []⟩)])],
    [(bs "B", ⟨bs "int", false, []⟩), (bs "Size", ⟨bs "int", false, []⟩)],
    ⟨2, by decide +kernel⟩, by decide +kernel, rfl, ⟨1, by decide +kernel⟩, by decide +kernel, by decide +kernel⟩

end Vfilter.Intro
