import Verif.Structs
import Mathlib.Data.List.Perm.Subperm
import Mathlib.Data.List.Nodup
/-!
# C82: Go structs as values

The fields and methods of a struct: which names are found, which value they have, and which are listed.
-/
set_option linter.all false

namespace Vfilter.Structs
variable {T O A : Type} {U : Types T}

/-! ## The depth of the search -/

/-- `b` is embedded in `a` at this depth. -/
inductive At (U : Types T) (a : T) : Nat → T → Prop
  | zero : At U a 0 a
  | succ {d b c f} : At U a d b → f ∈ U.fields b → f.embeds = some c → At U a (d + 1) c

theorem At.head {a b c : T} {d : Nat} {f : SField T} (hf : f ∈ U.fields a) (he : f.embeds = some b) (h : At U b d c) :
    At U a (d + 1) c := by
  induction h with
  | zero => exact .succ .zero hf he
  | succ _ h1 h2 ih => exact .succ ih h1 h2

theorem At.tail {a c : T} {d : Nat} (h : At U a (d + 1) c) :
    ∃ f ∈ U.fields a, ∃ b, f.embeds = some b ∧ At U b d c := by
  induction d generalizing c with
  | zero =>
    cases h with
    | succ h h1 h2 => cases h; exact ⟨_, h1, _, h2, .zero⟩
  | succ d ih =>
    cases h with
    | succ h h1 h2 =>
      obtain ⟨f, hf, b, hb, h⟩ := ih h
      exact ⟨f, hf, b, hb, .succ h h1 h2⟩

/-- What is at a depth. -/
theorem mem_level {d : Nat} {t : T} {f : SField T} :
    (∃ p, (p, f) ∈ level U d t) ↔ ∃ b, At U t d b ∧ f ∈ U.fields b := by
  induction d generalizing t with
  | zero =>
    simp only [level, direct, List.mem_map, Prod.mk.injEq, Prod.exists]
    constructor
    · rintro ⟨p, g, i, hm, rfl, rfl⟩
      exact ⟨t, .zero, List.mem_of_getElem? (List.mem_zipIdx_iff_getElem?.1 hm)⟩
    · rintro ⟨b, h, hf⟩
      cases h
      obtain ⟨i, hi⟩ := List.mem_iff_getElem?.1 hf
      exact ⟨[i], f, i, List.mem_zipIdx_iff_getElem?.2 hi, rfl, rfl⟩
  | succ d ih =>
    simp only [level, List.mem_flatMap, Prod.exists]
    constructor
    · rintro ⟨p, g, i, hm, h⟩
      cases he : g.embeds with
      | none => rw [he] at h; simp at h
      | some t' =>
        rw [he] at h
        obtain ⟨⟨q, f'⟩, hq, heq⟩ := List.mem_map.1 h
        cases heq
        obtain ⟨b, hb, hf⟩ := ih.1 ⟨q, hq⟩
        exact ⟨b, hb.head (List.mem_of_getElem? (List.mem_zipIdx_iff_getElem?.1 hm)) he, hf⟩
    · rintro ⟨b, h, hf⟩
      obtain ⟨g, hg, t', he, h⟩ := h.tail
      obtain ⟨q, hq⟩ := ih.2 ⟨b, h, hf⟩
      obtain ⟨i, hi⟩ := List.mem_iff_getElem?.1 hg
      refine ⟨i :: q, g, i, List.mem_zipIdx_iff_getElem?.2 hi, ?_⟩
      rw [he]
      exact List.mem_map.2 ⟨(q, f), hq, rfl⟩

/-- The types on the way to a type that is not embedded at a smaller depth differ. -/
theorem shortest {a : T} : ∀ (d : Nat) (b : T), At U a d b → (∀ e < d, ¬ At U a e b) →
    ∃ l : List T, l.length = d + 1 ∧ l.Nodup ∧ ∀ x ∈ l, ∃ e ≤ d, At U a e x
  | 0, b, h, _ => ⟨[b], rfl, by simp, fun x hx => ⟨0, Nat.le_refl _, by simp at hx; exact hx ▸ h⟩⟩
  | d + 1, c, h, hm => by
    cases h with
    | @succ _ b _ f h h1 h2 =>
      obtain ⟨l, hl, hn, hx⟩ := shortest d b h (fun e he h' => hm (e + 1) (by omega) (.succ h' h1 h2))
      refine ⟨l ++ [c], by simp [hl], ?_, ?_⟩
      · rw [List.nodup_append]
        refine ⟨hn, by simp, fun x hx1 y hy => ?_⟩
        simp only [List.mem_singleton] at hy
        subst hy
        rintro rfl
        obtain ⟨e, he, h'⟩ := hx x hx1
        exact hm e (by omega) h'
      · intro x hx1
        rcases List.mem_append.1 hx1 with hx1 | hx1
        · obtain ⟨e, he, h'⟩ := hx x hx1
          exact ⟨e, by omega, h'⟩
        · simp only [List.mem_singleton] at hx1
          exact ⟨d + 1, Nat.le_refl _, hx1 ▸ .succ h h1 h2⟩

/-- What is embedded is embedded at a depth below the number of types. -/
theorem at_bound {a b : T} {d : Nat} (h : At U a d b) : ∃ e < U.all.length, At U a e b := by
  induction d using Nat.strongRecOn with
  | _ d ih =>
    by_cases hm : ∃ e < d, At U a e b
    · obtain ⟨e, he, h'⟩ := hm
      exact ih e he h'
    · obtain ⟨l, hl, hn, _⟩ := shortest d b h (fun e he h' => hm ⟨e, he, h'⟩)
      have := (List.subperm_of_subset hn (fun x _ => U.mem_all x)).length_le
      exact ⟨d, by omega, h⟩

/-- No field at any depth has such a name. -/
def Free (U : Types T) (m : Str → Bool) (t : T) : Prop := ∀ d b f, At U t d b → f ∈ U.fields b → m f.name = false

theorem findFrom_none {m : Str → Bool} {t : T} (h : Free U m t) (n d : Nat) : findFrom U m t n d = none := by
  induction n generalizing d with
  | zero => rfl
  | succ n ih =>
    have : (level U d t).filter (fun p => m p.2.name) = [] := by
      rw [List.filter_eq_nil_iff]
      rintro ⟨p, f⟩ hp
      obtain ⟨b, hb, hf⟩ := mem_level.1 ⟨p, hp⟩
      simp [h d b f hb hf]
    rw [findFrom, this]
    exact ih (d + 1)

/-- The first depth with a field of such a name. -/
theorem findFrom_at {m : Str → Bool} {t : T} {e : Nat} (hlt : ∀ d < e, (level U d t).filter (fun p => m p.2.name) = [])
    (n d : Nat) (hd : d ≤ e) (hn : e < d + n) :
    findFrom U m t n d = match (level U e t).filter (fun p => m p.2.name) with
      | [] => findFrom U m t (n + d - e - 1) (e + 1)
      | [p] => some p
      | _ => none := by
  induction n generalizing d with
  | zero => omega
  | succ n ih =>
    rcases Nat.lt_or_eq_of_le hd with hlt' | rfl
    · rw [findFrom, hlt d hlt']
      simp only
      rw [ih (d + 1) (by omega) (by omega), show n + (d + 1) - e - 1 = n + 1 + d - e - 1 by omega]
    · rw [findFrom, show n + 1 + d - d - 1 = n by omega]
      rfl

/-- **C82** The search looks deep enough: it finds a field at the smallest depth at which there is one, if it is
the only one there. -/
theorem C82_search {m : Str → Bool} {t : T} {e : Nat} (hlt : ∀ d < e, (level U d t).filter (fun p => m p.2.name) = [])
    (hne : (level U e t).filter (fun p => m p.2.name) ≠ []) :
    find U m t = match (level U e t).filter (fun p => m p.2.name) with
      | [p] => some p
      | _ => none := by
  have he : e < U.all.length := by
    obtain ⟨⟨p, f⟩, hp⟩ := List.exists_mem_of_ne_nil _ hne
    obtain ⟨hp, hm⟩ := List.mem_filter.1 hp
    obtain ⟨b, hb, hf⟩ := mem_level.1 ⟨p, hp⟩
    obtain ⟨e', he', hb'⟩ := at_bound hb
    have : ¬ e' < e := by
      intro hlt'
      obtain ⟨q, hq⟩ := mem_level.2 ⟨b, hb', hf⟩
      have := List.filter_eq_nil_iff.1 (hlt e' hlt') _ hq
      exact this hm
    omega
  unfold find
  rw [findFrom_at hlt _ 0 (by omega) (by omega)]
  cases hl : (level U e t).filter (fun p => m p.2.name) with
  | nil => exact absurd hl hne
  | cons a l => cases l <;> rfl

/-! ## Fields of the struct itself -/

/-- The field is called `k`, or its json tag calls it so. -/
def Hits (k : Str) (f : SField T) : Prop := f.name = k ∨ jsonName f.tag = k

instance (k : Str) (f : SField T) : Decidable (Hits k f) := inferInstanceAs (Decidable (_ ∨ _))

/-- The names of the fields differ. -/
def Distinct (U : Types T) (t : T) : Prop := ((U.fields t).map (·.name)).Nodup

theorem fieldByName_direct {t : T} (hn : Distinct U t) {f : SField T} (hf : f ∈ U.fields t) :
    fieldByName U f.name t = some f := by
  have : (U.fields t).find? (fun g => decide (g.name = f.name)) = some f := by
    unfold Distinct at hn
    generalize U.fields t = l at hn hf
    induction l with
    | nil => simp at hf
    | cons g l ih =>
      rw [List.map_cons, List.nodup_cons] at hn
      rw [List.find?_cons]
      by_cases hg : g.name = f.name
      · simp only [hg, decide_true]
        rcases List.mem_cons.1 hf with rfl | hf
        · rfl
        · exact absurd (hg ▸ List.mem_map_of_mem hf) hn.1
      · simp only [hg, decide_false]
        rcases List.mem_cons.1 hf with rfl | hf
        · exact absurd rfl hg
        · exact ih hn.2 hf
  rw [fieldByName, this]

theorem match_direct {t : T} (hn : Distinct U t) {k : Str} {f : SField T} (hf : f ∈ U.fields t) :
    matchName U t k f.name = decide (Hits k f) := by
  unfold matchName Hits
  rw [fieldByName_direct hn hf]
  by_cases h : f.name = k <;> simp [h]

/-- The fields of the struct that are meant by a name. -/
theorem direct_filter {t : T} (hn : Distinct U t) (k : Str) :
    (level U 0 t).filter (fun p => matchName U t k p.2.name) =
      ((U.fields t).zipIdx.filter (fun p => decide (Hits k p.1))).map (fun p => ([p.2], p.1)) := by
  simp only [level, direct, List.filter_map]
  congr 1
  refine List.filter_congr (fun p hp => ?_)
  exact match_direct hn (List.mem_of_getElem? (List.mem_zipIdx_iff_getElem?.1 hp))

variable {X : Values T O A} {null : A}

/-- What is shown of a field. -/
def Cell.show (null : A) : Cell O A → Option A
  | .nilPtr => some null
  | .nilIface => none
  | .val v _ => some v

/-- **C82** A name that means one field of the struct, by its Go name or by its json tag, gives the value of that field. -/
theorem C82_field {o : O} {k : Str} (hn : Distinct U (X.typeOf o)) {i : Nat} {f : SField T}
    (hi : (U.fields (X.typeOf o))[i]? = some f) (hk : Hits k f)
    (hu : ∀ j g, (U.fields (X.typeOf o))[j]? = some g → Hits k g → j = i) (hv : f.visible = true) :
    assoc U X null o k = ((X.cell o i).show null, true) := by
  have hl : (level U 0 (X.typeOf o)).filter (fun p => matchName U (X.typeOf o) k p.2.name) = [([i], f)] := by
    rw [direct_filter hn]
    have : (U.fields (X.typeOf o)).zipIdx.filter (fun p => decide (Hits k p.1)) = [(f, i)] := by
      have h1 : (f, i) ∈ (U.fields (X.typeOf o)).zipIdx := List.mem_zipIdx_iff_getElem?.2 hi
      have h2 : ∀ p ∈ (U.fields (X.typeOf o)).zipIdx, Hits k p.1 → p = (f, i) := by
        rintro ⟨g, j⟩ hp hh
        have hj := List.mem_zipIdx_iff_getElem?.1 hp
        have := hu j g hj hh
        subst this
        rw [hi] at hj
        cases hj; rfl
      have h3 : ((U.fields (X.typeOf o)).zipIdx).Nodup := by
        refine List.Nodup.of_map (·.2) ?_
        rw [show ((U.fields (X.typeOf o)).zipIdx.map (·.2)) = List.range (U.fields (X.typeOf o)).length by
          rw [List.zipIdx_map_snd, List.range_eq_range']]
        exact List.nodup_range
      generalize (U.fields (X.typeOf o)).zipIdx = l at h1 h2 h3
      induction l with
      | nil => simp at h1
      | cons p l ih =>
        rw [List.nodup_cons] at h3
        by_cases hp : Hits k p.1
        · have := h2 p (by simp) hp
          subst this
          rw [List.filter_cons_of_pos (by simpa using hk)]
          congr 1
          rw [List.filter_eq_nil_iff]
          intro q hq
          simp only [decide_eq_true_eq]
          intro hh
          exact h3.1 (h2 q (by simp [hq]) hh ▸ hq)
        · rw [List.filter_cons_of_neg (by simpa using hp)]
          refine ih ?_ (fun q hq => h2 q (by simp [hq])) h3.2
          rcases List.mem_cons.1 h1 with h1 | h1
          · subst h1; exact absurd hk hp
          · exact h1
    rw [this]; rfl
  have hs := C82_search (U := U) (m := matchName U (X.typeOf o) k) (t := X.typeOf o) (e := 0) (by simp) (by rw [hl]; simp)
  rw [hl] at hs
  unfold assoc
  rw [hs]
  simp only [follow, hv, if_true]
  cases X.cell o i <;> rfl

/-- **C82** What a field may be called: its name, or its json tag up to the first comma. -/
theorem C82_tag {k : Str} {f : SField T} :
    Hits k f ↔ f.name = k ∨ 44 ∉ k ∧ (f.tag = k ∨ ∃ options, f.tag = k ++ 44 :: options) := by
  unfold Hits
  refine or_congr Iff.rfl ?_
  have key : ∀ tag k : Str, jsonName tag = k ↔ 44 ∉ k ∧ (tag = k ∨ ∃ options, tag = k ++ 44 :: options) := by
    intro tag k
    constructor
    · intro h
      have split := List.takeWhile_append_dropWhile (p := fun c : UInt8 => c != 44) (l := tag)
      have no : 44 ∉ k := by
        intro hin
        have := List.all_eq_true.mp (List.all_takeWhile (p := fun c : UInt8 => c != 44) (l := tag)) 44 (by rw [← h] at hin; exact hin)
        exact absurd this (by decide)
      refine ⟨no, ?_⟩
      cases hd : tag.dropWhile (fun c : UInt8 => c != 44) with
      | nil => left; rw [hd, List.append_nil] at split; exact split.symm.trans h
      | cons c rest =>
        right
        have hc := List.head_dropWhile_not (p := fun c : UInt8 => c != 44) (l := tag) (by rw [hd]; simp)
        simp only [hd, List.head_cons, bne_eq_false_iff_eq] at hc
        refine ⟨rest, ?_⟩
        rw [← split, hd, hc]; exact congrArg (· ++ _) h
    · rintro ⟨no, rfl | ⟨rest, rfl⟩⟩
      · have := List.takeWhile_append_of_pos (p := fun c : UInt8 => c != 44) (l₁ := tag) (l₂ := [])
          (fun c hc => by rw [bne_iff_ne]; rintro rfl; exact no hc)
        simpa [jsonName] using this
      · unfold jsonName
        rw [List.takeWhile_append_of_pos (fun c hc => by rw [bne_iff_ne]; rintro rfl; exact no hc)]
        rw [List.takeWhile_cons_of_neg (by decide), List.append_nil]
  exact key f.tag k

/-- **C82** Two fields of the struct that a name may mean hide each other: the name is looked for among the methods. -/
theorem C82_ambiguous {o : O} {k : Str} (hn : Distinct U (X.typeOf o)) {i j : Nat} {f g : SField T}
    (hi : (U.fields (X.typeOf o))[i]? = some f) (hj : (U.fields (X.typeOf o))[j]? = some g) (hij : i ≠ j)
    (hf : Hits k f) (hg : Hits k g) : assoc U X null o k = method U X null o k := by
  have m1 : (f, i) ∈ (U.fields (X.typeOf o)).zipIdx.filter (fun p => decide (Hits k p.1)) :=
    List.mem_filter.2 ⟨List.mem_zipIdx_iff_getElem?.2 hi, by simpa using hf⟩
  have m2 : (g, j) ∈ (U.fields (X.typeOf o)).zipIdx.filter (fun p => decide (Hits k p.1)) :=
    List.mem_filter.2 ⟨List.mem_zipIdx_iff_getElem?.2 hj, by simpa using hg⟩
  have hl := direct_filter (U := U) hn k
  have hs : find U (matchName U (X.typeOf o) k) (X.typeOf o) = none := by
    rw [C82_search (e := 0) (by simp) (by
      rw [hl]; intro h
      rw [List.map_eq_nil_iff] at h
      rw [h] at m1; simp at m1), hl]
    cases hc : (U.fields (X.typeOf o)).zipIdx.filter (fun p => decide (Hits k p.1)) with
    | nil => rfl
    | cons a l =>
      cases l with
      | nil =>
        rw [hc] at m1 m2
        simp only [List.mem_singleton] at m1 m2
        rw [← m2] at m1
        cases m1
        exact absurd rfl hij
      | cons b l => rfl
  unfold assoc
  rw [hs]

/-- **C82** A name that no field has, of the struct or of an embedded one, is looked for among the methods. -/
theorem C82_no_field {o : O} {k : Str} (h : Free U (matchName U (X.typeOf o) k) (X.typeOf o)) :
    assoc U X null o k = method U X null o k := by
  unfold assoc find
  rw [findFrom_none h]

/-! ## Methods -/

/-- **C82** A method without parameters and with one or two results gives the first one. -/
theorem C82_method {o : O} {k : Str} {m : Method A} (hm : (X.methods o).find? (fun m => decide (m.name = k)) = some m)
    (he : isExported U k = true) (hi : m.ins = 0) {v : A} {rest : List (Ret A)} (hr : m.results = some (.val v :: rest))
    (hl : rest.length ≤ 1) : method U X null o k = (some v, true) := by
  unfold method
  rw [hm]
  simp [he, hi, hr, hl]

/-- **C82** Names that are not exported, and methods with parameters, are not there. -/
theorem C82_method_refused {o : O} {k : Str} (h : isExported U k = false ∨
      ∀ m, (X.methods o).find? (fun m => decide (m.name = k)) = some m → m.ins ≠ 0) :
    method U X null o k = (some null, false) := by
  unfold method
  cases hm : (X.methods o).find? (fun m => decide (m.name = k)) with
  | none => rfl
  | some m =>
    rcases h with h | h
    · simp [h]
    · have := h m hm
      simp [this]

/-! ## Embedded structs -/

/-- No json tag, of the struct or of an embedded one, has this name. -/
def NoTag (U : Types T) (t : T) (k : Str) : Prop := ∀ d b f, At U t d b → f ∈ U.fields b → jsonName f.tag ≠ k

theorem findFrom_mem {m : Str → Bool} {t : T} {n d : Nat} {p : List Nat × SField T} (h : findFrom U m t n d = some p) :
    ∃ e, p ∈ level U e t := by
  induction n generalizing d with
  | zero => cases h
  | succ n ih =>
    rw [findFrom] at h
    split at h
    · exact ih h
    · rename_i q hq
      cases h
      exact ⟨d, (List.mem_filter.1 (hq ▸ List.mem_singleton_self p)).1⟩
    · cases h

theorem fieldByName_mem {n : Str} {t : T} {f : SField T} (h : fieldByName U n t = some f) : ∃ d b, At U t d b ∧ f ∈ U.fields b := by
  unfold fieldByName at h
  split at h
  · rename_i g hg
    cases h
    exact ⟨0, t, .zero, List.mem_of_find?_eq_some hg⟩
  · obtain ⟨⟨p, g⟩, hp, rfl⟩ := Option.map_eq_some_iff.1 h
    obtain ⟨e, he⟩ := findFrom_mem hp
    obtain ⟨b, hb, hf⟩ := mem_level.1 ⟨p, he⟩
    exact ⟨e, b, hb, hf⟩

theorem match_noTag {t : T} {k : Str} (h : NoTag U t k) (n : Str) : matchName U t k n = decide (n = k) := by
  unfold matchName
  by_cases hn : n = k
  · simp [hn]
  · simp only [hn, if_false, decide_false]
    cases hf : fieldByName U n t with
    | none => rfl
    | some f =>
      obtain ⟨d, b, hb, hm⟩ := fieldByName_mem hf
      simp [h d b f hb hm]

/-- **C82** A name that is no tag means what it means in Go: the field at the smallest depth of embedding, if it is
the only one there.  On the way through an embedded nil pointer nothing is found. -/
theorem C82_promoted {o : O} {k : Str} (ht : NoTag U (X.typeOf o) k) {e : Nat} {p : List Nat} {f : SField T}
    (hlt : ∀ d < e, ∀ q ∈ level U d (X.typeOf o), q.2.name ≠ k)
    (hu : (level U e (X.typeOf o)).filter (fun q => decide (q.2.name = k)) = [(p, f)]) (hv : f.visible = true) :
    assoc U X null o k = match follow X o p with
      | none => (none, false)
      | some c => (c.show null, true) := by
  have hm : matchName U (X.typeOf o) k = fun n => decide (n = k) := funext (match_noTag ht)
  have hs : find U (matchName U (X.typeOf o) k) (X.typeOf o) = some (p, f) := by
    rw [hm, C82_search (e := e) (fun d hd => List.filter_eq_nil_iff.2 (fun q hq => by simpa using hlt d hd q hq))
      (by rw [hu]; simp), hu]
  unfold assoc
  rw [hs]
  simp only [hv, if_true]
  cases follow X o p with
  | none => rfl
  | some c => cases c <;> rfl

/-- **C82** Two fields of this name at the smallest depth hide each other, as in Go. -/
theorem C82_promoted_ambiguous {o : O} {k : Str} (ht : NoTag U (X.typeOf o) k) {e : Nat} {a b : List Nat × SField T}
    {l : List (List Nat × SField T)} (hlt : ∀ d < e, ∀ q ∈ level U d (X.typeOf o), q.2.name ≠ k)
    (hu : (level U e (X.typeOf o)).filter (fun q => decide (q.2.name = k)) = a :: b :: l) :
    assoc U X null o k = method U X null o k := by
  have hm : matchName U (X.typeOf o) k = fun n => decide (n = k) := funext (match_noTag ht)
  have hs : find U (matchName U (X.typeOf o) k) (X.typeOf o) = none := by
    rw [hm, C82_search (e := e) (fun d hd => List.filter_eq_nil_iff.2 (fun q hq => by simpa using hlt d hd q hq))
      (by rw [hu]; simp), hu]
  unfold assoc
  rw [hs]

/-! ## Members -/

/-- **C82** The members are the exported fields of the struct in order, and then the exported methods without parameters. -/
theorem C82_members {o : O} {k : Str} : k ∈ members U X o ↔ isExported U k = true ∧
    ((∃ f ∈ U.fields (X.typeOf o), f.name = k) ∨ ∃ m ∈ X.methods o, m.name = k ∧ m.ins = 0) := by
  simp only [members, List.mem_append, List.mem_map, List.mem_filter, Bool.and_eq_true, beq_iff_eq]
  constructor
  · rintro (⟨f, ⟨h1, h2⟩, rfl⟩ | ⟨m, ⟨h1, h2, h3⟩, rfl⟩)
    · exact ⟨h2, .inl ⟨f, h1, rfl⟩⟩
    · exact ⟨h2, .inr ⟨m, h1, rfl, h3⟩⟩
  · rintro ⟨h, ⟨f, h1, rfl⟩ | ⟨m, h1, rfl, h2⟩⟩
    · exact .inl ⟨f, ⟨h1, h⟩, rfl⟩
    · exact .inr ⟨m, ⟨h1, h, h2⟩, rfl⟩

/-- A struct whose members mean one thing each.  Go guarantees the first two. -/
structure Clean (U : Types T) (X : Values T O A) (o : O) : Prop where
  /-- fields have different names -/
  fields : Distinct U (X.typeOf o)
  /-- methods have different names -/
  methods : ((X.methods o).map (·.name)).Nodup
  /-- what `utils.IsExported` takes as exported is -/
  visible : ∀ f ∈ U.fields (X.typeOf o), isExported U f.name = true → f.visible = true
  /-- no field has another exported field's name as json tag -/
  tags : ∀ (i j : Nat) (f g : SField T), (U.fields (X.typeOf o))[i]? = some f → (U.fields (X.typeOf o))[j]? = some g → i ≠ j →
    isExported U f.name = true → jsonName g.tag ≠ f.name
  /-- accessor methods are not called like a field, of the struct or of an embedded one, or like a json tag -/
  own : ∀ m ∈ X.methods o, isExported U m.name = true → m.ins = 0 → ∀ d b f, At U (X.typeOf o) d b → f ∈ U.fields b → ¬ Hits m.name f
  /-- accessor methods do not panic -/
  ends : ∀ m ∈ X.methods o, isExported U m.name = true → m.ins = 0 → m.results ≠ none

theorem free_of {t : T} {k : Str} (h : ∀ d b f, At U t d b → f ∈ U.fields b → ¬ Hits k f) : Free U (matchName U t k) t := by
  intro d b f hb hf
  rw [match_noTag (fun d b f hb hf he => h d b f hb hf (.inr he))]
  simp only [decide_eq_false_iff_not]
  exact fun he => h d b f hb hf (.inl he)

theorem method_find {l : List (Method A)} (hn : (l.map (·.name)).Nodup) {m : Method A} (hm : m ∈ l) :
    l.find? (fun x => decide (x.name = m.name)) = some m := by
  induction l with
  | nil => simp at hm
  | cons g l ih =>
    rw [List.map_cons, List.nodup_cons] at hn
    rw [List.find?_cons]
    by_cases hg : g.name = m.name
    · simp only [hg, decide_true]
      rcases List.mem_cons.1 hm with rfl | hm
      · rfl
      · exact absurd (hg ▸ List.mem_map_of_mem hm) hn.1
    · simp only [hg, decide_false]
      rcases List.mem_cons.1 hm with rfl | hm
      · exact absurd rfl hg
      · exact ih hn.2 hm

/-- **C82** Every field that is listed can be read and has its value. -/
theorem C82_listed_field_partial {o : O} (h : Clean U X o) {i : Nat} {f : SField T} (hi : (U.fields (X.typeOf o))[i]? = some f)
    (he : isExported U f.name = true) : assoc U X null o f.name = ((X.cell o i).show null, true) := by
  refine C82_field h.fields hi (.inl rfl) ?_ (h.visible f (List.mem_of_getElem? hi) he)
  intro j g hj hg
  apply Classical.byContradiction
  intro hij
  rcases hg with hg | hg
  · have hn := h.fields
    unfold Distinct at hn
    have h1 : ((U.fields (X.typeOf o)).map (·.name))[j]? = some f.name := by simp [hj, hg]
    have h2 : ((U.fields (X.typeOf o)).map (·.name))[i]? = some f.name := by simp [hi]
    have hl : j < ((U.fields (X.typeOf o)).map (·.name)).length := (List.getElem?_eq_some_iff.1 h1).1
    exact hij ((List.getElem?_inj hl hn).1 (h1.trans h2.symm))
  · exact h.tags i j f g hi hj (fun e => hij e.symm) he hg

/-- **C82** Every accessor method that is listed is called. -/
theorem C82_listed_method_partial {o : O} (h : Clean U X o) {m : Method A} (hm : m ∈ X.methods o)
    (he : isExported U m.name = true) (hi : m.ins = 0) :
    ∃ r, m.results = some r ∧ assoc U X null o m.name = (match r with
      | .val v :: rest => if rest.length ≤ 1 then (some v, true) else (some null, true)
      | .nilIface :: rest => if rest.length ≤ 1 then (none, true) else (some null, true)
      | _ => (some null, true)) := by
  cases hr : m.results with
  | none => exact absurd hr (h.ends m hm he hi)
  | some r =>
    refine ⟨r, rfl, ?_⟩
    rw [C82_no_field (free_of (h.own m hm he hi))]
    unfold method
    rw [method_find h.methods hm]
    simp only [he, hi, beq_self_eq_true, Bool.and_self, if_true, hr]
    cases r with
    | nil => rfl
    | cons a r => cases a <;> rfl

/-- **C82** Every member that is listed can be read. -/
theorem C82_listed_partial {o : O} (h : Clean U X o) {k : Str} (hk : k ∈ members U X o) : (assoc U X null o k).2 = true := by
  obtain ⟨he, ⟨f, hf, rfl⟩ | ⟨m, hm, rfl, hi⟩⟩ := C82_members.1 hk
  · obtain ⟨i, hi⟩ := List.mem_iff_getElem?.1 hf
    rw [C82_listed_field_partial h hi he]
  · obtain ⟨r, _, h2⟩ := C82_listed_method_partial (null := null) h hm he hi
    rw [h2]
    cases r with
    | nil => rfl
    | cons a r => cases a <;> simp only <;> first | rfl | (split <;> rfl)

/-! ## What is not so -/

/-- Two struct types: `false` may embed `true`. -/
def two (outer inner : List (SField Bool)) : Types Bool where
  all := [false, true]
  mem_all t := by cases t <;> simp
  fields t := if t then inner else outer
  upper _ := true

/-- Numbers: object 0 is of the outer type and has object 1 in its first field. -/
def twoVals (methods : List (Method Nat)) : Values Bool Bool Nat where
  typeOf o := o
  cell o i := if o then .val (10 + i) none else .val i (some true)
  methods o := if o then [] else methods

/-- **C82** A field whose name is another field's json tag is listed and cannot be read. -/
theorem C82_tag_clash_refuted : ∃ (U : Types Bool) (X : Values Bool Bool Nat) (o : Bool) (k : Str),
    k ∈ members U X o ∧ assoc U X 0 o k = (some 0, false) :=
  ⟨two [⟨bs "A", true, bs "B", none⟩, ⟨bs "B", true, [], none⟩] [], twoVals [], false, bs "B", by decide +kernel, by decide +kernel⟩

/-- **C82** Fields of embedded structs can be read and are not listed, so `SELECT *` leaves them out. -/
theorem C82_promoted_not_listed_refuted : ∃ (U : Types Bool) (X : Values Bool Bool Nat) (o : Bool) (k : Str),
    k ∉ members U X o ∧ assoc U X 0 o k = (some 10, true) :=
  ⟨two [⟨bs "Inner", true, [], some true⟩] [⟨bs "X", true, [], none⟩], twoVals [], false, bs "X", by decide +kernel, by decide +kernel⟩

/-- **C82** A field of an embedded struct hides a method of the struct itself; in Go it is the other way round. -/
theorem C82_own_method_refuted : ∃ (U : Types Bool) (X : Values Bool Bool Nat) (o : Bool) (m : Method Nat),
    m ∈ X.methods o ∧ m.ins = 0 ∧ m.results = some [.val 5] ∧ m.name ∈ members U X o ∧ assoc U X 0 o m.name = (some 10, true) :=
  ⟨two [⟨bs "Inner", true, [], some true⟩] [⟨bs "X", true, [], none⟩], twoVals [⟨bs "X", 0, some [.val 5]⟩], false,
    ⟨bs "X", 0, some [.val 5]⟩, by simp [twoVals], rfl, rfl, by decide +kernel, by decide +kernel⟩

/-- **C82** A field whose name begins with a letter that has no case is not exported in Go; it is listed and cannot be read. -/
theorem C82_no_case_refuted : ∃ (U : Types Bool) (X : Values Bool Bool Nat) (o : Bool) (k : Str),
    k ∈ members U X o ∧ assoc U X 0 o k = (some 0, false) ∧ ∀ f ∈ U.fields (X.typeOf o), f.visible = false :=
  ⟨two [⟨[228, 184, 150], false, [], none⟩] [], twoVals [], false, [228, 184, 150], by decide +kernel, by decide +kernel, by decide +kernel⟩

/-- A clean struct with a tag, an embedded struct and a method. -/
example : Clean (two [⟨bs "Inner", true, [], some true⟩, ⟨bs "Name", true, bs "name,omitempty", none⟩] [⟨bs "X", true, [], none⟩])
    (twoVals [⟨bs "Size", 0, some [.val 5, .nilIface]⟩]) false ∧
    assoc (two [⟨bs "Inner", true, [], some true⟩, ⟨bs "Name", true, bs "name,omitempty", none⟩] [⟨bs "X", true, [], none⟩])
      (twoVals [⟨bs "Size", 0, some [.val 5, .nilIface]⟩]) 0 false (bs "name") = (some 1, true) ∧
    assoc (two [⟨bs "Inner", true, [], some true⟩, ⟨bs "Name", true, bs "name,omitempty", none⟩] [⟨bs "X", true, [], none⟩])
      (twoVals [⟨bs "Size", 0, some [.val 5, .nilIface]⟩]) 0 false (bs "X") = (some 10, true) := by
  refine ⟨⟨by unfold Distinct; decide +kernel, by decide +kernel, by decide +kernel, ?_, ?_, ?_⟩, by decide +kernel, by decide +kernel⟩
  · intro i j f g hi hj hij he
    have hi' : i = 0 ∨ i = 1 := by
      have := (List.getElem?_eq_some_iff.1 hi).1
      simp [two, twoVals] at this
      omega
    have hj' : j = 0 ∨ j = 1 := by
      have := (List.getElem?_eq_some_iff.1 hj).1
      simp [two, twoVals] at this
      omega
    rcases hi' with rfl | rfl <;> rcases hj' with rfl | rfl <;> simp [two, twoVals] at hi hj <;> subst hi <;> subst hj <;>
      first | exact absurd rfl hij | decide +kernel
  · intro m hm he hi d b f hb hf
    simp only [twoVals, Bool.false_eq_true, if_false, List.mem_singleton] at hm
    subst hm
    have hf' : f ∈ [⟨bs "Inner", true, [], some true⟩, ⟨bs "Name", true, bs "name,omitempty", none⟩, ⟨bs "X", true, [], none⟩] := by
      cases b <;> simp [two] at hf <;> simp [hf]
      rcases hf with rfl | rfl <;> simp
    simp only [List.mem_cons, List.not_mem_nil, or_false] at hf'
    rcases hf' with rfl | rfl | rfl <;> decide +kernel
  · intro m hm _ _
    simp only [twoVals, Bool.false_eq_true, if_false, List.mem_singleton] at hm
    subst hm
    simp

end Vfilter.Structs
