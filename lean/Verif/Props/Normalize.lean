import Verif.Normalize
import Verif.ODLemmas
import Verif.Props.Compare
import Mathlib.Data.List.Perm.Basic
/-!
# C60 row normalisation
-/

set_option linter.all false

namespace Vfilter
variable {L P : Type}

/-- Only plain data: plain values, NULL, and lists and dicts of plain data. -/
inductive Clean : NV L P → Prop where
  | plain {p} : Clean (.plain p)
  | nul : Clean .nul
  | dict {d} : (∀ p ∈ d, Clean p.2) → Clean (.dict d)
  | arr {l} : (∀ v ∈ l, Clean v) → Clean (.arr l)

/-- Dicts, query rows and materializer results contain only plain data. -/
inductive Tame : NV L P → Prop where
  | plain {p} : Tame (.plain p)
  | nul : Tame .nul
  | dict {d} : (∀ p ∈ d, Clean p.2) → Tame (.dict d)
  | lazy {l} : Tame (.lazy l)
  | query {rows} : (∀ v ∈ rows, Clean v) → Tame (.query rows)
  | mat {v} : Clean v → Tame (.mat v)
  | memb {ms} : (∀ m ∈ ms, ∀ v, m.2 = some v → Tame v) → Tame (.memb ms)
  | arr {l} : (∀ v ∈ l, Tame v) → Tame (.arr l)
  | map {d} : (∀ p ∈ d, Tame p.2) → Tame (.map d)

theorem mem_od_set {V : Type} {d : OD V} {k : Str} {v : V} {p : Str × V} (h : p ∈ OD.set d k v) :
    p = (k, v) ∨ p ∈ d := by
  unfold OD.set OD.erase at h
  rcases List.mem_append.1 h with h | h
  · exact Or.inr (List.mem_filter.1 h).1
  · exact Or.inl (by simpa using h)

theorem insertKey_perm {V : Type} (p : Str × V) (l : List (Str × V)) : (insertKey p l).Perm (p :: l) := by
  induction l with
  | nil => exact List.Perm.refl _
  | cons q r ih =>
    simp only [insertKey]
    split
    · exact List.Perm.refl _
    · exact (List.Perm.cons q ih).trans (List.Perm.swap p q r)

theorem sortKeys_perm {V : Type} (l : List (Str × V)) : (sortKeys l).Perm l := by
  induction l with
  | nil => exact List.Perm.refl _
  | cons p l ih => exact (insertKey_perm p _).trans (List.Perm.cons p ih)

/-- Normalisation yields only plain data, provided that dicts and query results do: these
are passed on as they are (see `C60_plain_refuted`). -/
theorem C60_plain_partial (red : L → NV L P) (hred : ∀ l, Tame (red l)) (v : NV L P) (hv : Tame v) :
    Clean (normalize0 red v) := by
  unfold normalize0
  generalize 11 = n
  induction n generalizing v with
  | zero => exact .nul
  | succ n ih =>
    cases hv with
    | plain => exact .plain
    | nul => exact .nul
    | dict h => exact .dict h
    | lazy => exact ih _ (hred _)
    | query h => exact .arr h
    | mat h => exact h
    | memb h =>
      rename_i ms
      refine .dict ?_
      have key : ∀ (ms : List (Str × Option (NV L P))) (acc : OD (NV L P)),
          (∀ m ∈ ms, ∀ v, m.2 = some v → Tame v) → (∀ p ∈ acc, Clean p.2) →
          ∀ p ∈ ms.foldl (fun d m => OD.set d m.1 (match m.2 with
            | some v => normalize red n v
            | none => normalize red n .nul)) acc, Clean p.2 := by
        intro ms
        induction ms with
        | nil => intro acc _ h; exact h
        | cons m ms ihm =>
          intro acc h1 h2
          refine ihm _ (fun m' hm' => h1 m' (by simp [hm'])) ?_
          intro p hp
          rcases mem_od_set hp with rfl | hp
          · obtain ⟨k, o⟩ := m
            cases o with
            | some v => exact ih v (h1 (k, some v) (by simp) v rfl)
            | none => exact ih .nul .nul
          · exact h2 p hp
      exact key ms [] h (by simp)
    | arr h =>
      refine .arr ?_
      intro w hw
      obtain ⟨v, hv, rfl⟩ := List.mem_map.1 hw
      exact ih v (h v hv)
    | map h =>
      rename_i d
      refine .dict ?_
      intro p hp
      have hp := (sortKeys_perm _).mem_iff.1 hp
      have key : ∀ (ms acc : OD (NV L P)), (∀ m ∈ ms, Tame m.2) → (∀ p ∈ acc, Clean p.2) →
          ∀ p ∈ ms.foldl (fun d m => OD.set d m.1 (normalize red n m.2)) acc, Clean p.2 := by
        intro ms
        induction ms with
        | nil => intro acc _ h; exact h
        | cons m ms ihm =>
          intro acc h1 h2
          refine ihm _ (fun m' hm' => h1 m' (by simp [hm'])) ?_
          intro p hp
          rcases mem_od_set hp with rfl | hp
          · exact ih m.2 (h1 m (by simp))
          · exact h2 p hp
      exact key d [] h (by simp) p hp

/-- A lazy value stored in a dict survives, and so do lazy values in the rows of a query. -/
theorem C60_plain_refuted (red : L → NV L P) (l : L) (k : Str) :
    normalize0 red (.dict [(k, .lazy l)]) = .dict [(k, .lazy l)] ∧
    normalize0 red (.query [.lazy l]) = .arr [.lazy l] := ⟨rfl, rfl⟩

/-- Lists of plain values and dicts, nested at most `n` deep. -/
inductive Shallow : Nat → NV L P → Prop where
  | plain {n p} : Shallow n (.plain p)
  | nul {n} : Shallow n .nul
  | dict {n d} : Shallow n (.dict d)
  | arr {n l} : (∀ v ∈ l, Shallow n v) → Shallow (n + 1) (.arr l)

/-- Plain values and lists within the limit are kept as they are. -/
theorem C60_keeps (red : L → NV L P) (v : NV L P) (h : Shallow 10 v) : normalize0 red v = v := by
  unfold normalize0
  have key : ∀ n (v : NV L P), Shallow n v → normalize red (n + 1) v = v := by
    intro n v h
    induction h with
    | plain => rfl
    | nul => rfl
    | dict => rfl
    | arr _ ih =>
      rename_i m l _
      show NV.arr (l.map (normalize red (m + 1))) = _
      congr 1
      have : ∀ v ∈ l, normalize red (m + 1) v = id v := fun v hv => ih v hv
      rw [List.map_congr_left this]; simp
  exact key 10 v h

/-- A step into a value: list index, member or map key, or reduction of a lazy value. -/
inductive Seg where
  | idx (i : Nat)
  | key (k : Str)
  | red

/-- `w` is nested in `v` at a path. -/
inductive SubV (red : L → NV L P) : NV L P → List Seg → NV L P → Prop where
  | here {v} : SubV red v [] v
  | idx {l i x p w} : l[i]? = some x → SubV red x p w → SubV red (.arr l) (.idx i :: p) w
  | memb {ms k x p w} : (ms.map (·.1)).Nodup → (k, some x) ∈ ms → SubV red x p w → SubV red (.memb ms) (.key k :: p) w
  | map {d k x p w} : (d.map (·.1)).Nodup → (k, x) ∈ d → SubV red x p w → SubV red (.map d) (.key k :: p) w
  | red {l p w} : SubV red (red l) p w → SubV red (.lazy l) (.red :: p) w

/-- `w` is in the output `v` at a path; reduction leaves no trace. -/
inductive SubR : NV L P → List Seg → NV L P → Prop where
  | here {v} : SubR v [] v
  | idx {l i x p w} : l[i]? = some x → SubR x p w → SubR (.arr l) (.idx i :: p) w
  | key {d k x p w} : OD.get d k = some x → SubR x p w → SubR (.dict d) (.key k :: p) w
  | red {v p w} : SubR v p w → SubR v (.red :: p) w

theorem foldl_set_nodup {A V : Type} (f : A → V) (ms : List (Str × A)) (h : (ms.map (·.1)).Nodup) :
    ms.foldl (fun d m => OD.set d m.1 (f m.2)) [] = ms.map (fun m => (m.1, f m.2)) := by
  have key : ∀ (ms : List (Str × A)) (acc : OD V), (OD.keys acc ++ ms.map (·.1)).Nodup →
      ms.foldl (fun d m => OD.set d m.1 (f m.2)) acc = acc ++ ms.map (fun m => (m.1, f m.2)) := by
    intro ms
    induction ms with
    | nil => intro acc _; simp
    | cons m ms ih =>
      intro acc hn
      have hm : m.1 ∉ OD.keys acc := by
        intro hm
        have := List.nodup_append.1 hn
        exact this.2.2 _ hm _ (by simp) rfl
      rw [List.foldl_cons, OD.set_of_not_mem acc _ hm, ih]
      · simp
      · rw [OD.keys_append]
        simpa [OD.keys] using hn
  simpa using key ms [] (by simpa [OD.keys] using h)

theorem get_perm_nodup {V : Type} {d e : OD V} (hp : d.Perm e) (hd : OD.WF e) {k : Str} {v : V}
    (h : (k, v) ∈ e) : OD.get d k = some v := by
  have : OD.WF d := by
    unfold OD.WF OD.keys at *
    exact ((hp.map _).nodup_iff).2 hd
  exact OD.get_of_mem this (hp.mem_iff.2 h)

/-- What is nested up to the limit is normalised in place, what is nested deeper is
replaced by NULL; reducing lazy values counts as nesting. -/
theorem C60_depth (red : L → NV L P) (n : Nat) (v w : NV L P) (p : List Seg) (h : SubV red v p w)
    (hn : p.length ≤ n) : SubR (normalize red n v) p (normalize red (n - p.length) w) := by
  induction h generalizing n with
  | here => exact .here
  | idx hx _ ih =>
    obtain ⟨n, rfl⟩ : ∃ m, n = m + 1 := ⟨n - 1, by simp at hn; omega⟩
    rename_i l i x p w _
    simp only [normalize, List.length_cons]
    rw [show n + 1 - (p.length + 1) = n - p.length by omega]
    exact .idx (by simp [hx]) (ih n (by simp at hn; omega))
  | memb hnd hx _ ih =>
    obtain ⟨n, rfl⟩ : ∃ m, n = m + 1 := ⟨n - 1, by simp at hn; omega⟩
    rename_i ms k x p w _
    simp only [normalize, List.length_cons]
    rw [show n + 1 - (p.length + 1) = n - p.length by omega]
    refine .key ?_ (ih n (by simp at hn; omega))
    have := foldl_set_nodup (fun o : Option (NV L P) => match o with
        | some v => normalize red n v
        | none => normalize red n .nul) ms hnd
    refine (congrArg (fun d => OD.get d k) this).trans ?_
    refine get_perm_nodup (List.Perm.refl _) ?_ (List.mem_map.2 ⟨_, hx, rfl⟩)
    simpa [OD.WF, OD.keys, Function.comp_def] using hnd
  | map hnd hx _ ih =>
    obtain ⟨n, rfl⟩ : ∃ m, n = m + 1 := ⟨n - 1, by simp at hn; omega⟩
    rename_i d k x p w _
    simp only [normalize, List.length_cons]
    rw [show n + 1 - (p.length + 1) = n - p.length by omega]
    refine .key ?_ (ih n (by simp at hn; omega))
    have := foldl_set_nodup (normalize red n) d hnd
    rw [this]
    refine get_perm_nodup (sortKeys_perm _) ?_ (List.mem_map.2 ⟨_, hx, rfl⟩)
    simpa [OD.WF, OD.keys, Function.comp_def] using hnd
  | red _ ih =>
    obtain ⟨n, rfl⟩ : ∃ m, n = m + 1 := ⟨n - 1, by simp at hn; omega⟩
    rename_i l p w _
    simp only [normalize, List.length_cons]
    rw [show n + 1 - (p.length + 1) = n - p.length by omega]
    exact .red (ih n (by simp at hn; omega))

/-- The limit is 10: a value nested 11 deep is replaced by NULL. -/
theorem C60_limit (red : L → NV L P) (v w : NV L P) (p : List Seg) (h : SubV red v p w) (hp : p.length = 11) :
    SubR (normalize0 red v) p .nul := by
  have := C60_depth red 11 v w p h (by omega)
  rw [hp] at this
  exact this

/-- Lazy values that reduce to themselves for ever end as NULL. -/
theorem C60_lazy_loop (red : L → NV L P) (l : L) (h : red l = .lazy l) : normalize0 red (.lazy l) = .nul := by
  unfold normalize0
  generalize 11 = n
  induction n with
  | zero => rfl
  | succ n ih => simp only [normalize, h]; exact ih

/-- The dict has the columns of the row that are present, in order, with the normalised
values. -/
theorem C60_columns (red : L → NV L P) (row : List (Str × Option (NV L P))) (h : (row.map (·.1)).Nodup) :
    rowToDict red row = row.filterMap (fun m => m.2.map (fun v => (m.1, normalize0 red v))) := by
  unfold rowToDict
  have key : ∀ (row : List (Str × Option (NV L P))) (acc : OD (NV L P)), (OD.keys acc ++ row.map (·.1)).Nodup →
      row.foldl (fun d m => match m.2 with
        | some v => OD.set d m.1 (normalize0 red v)
        | none => d) acc = acc ++ row.filterMap (fun m => m.2.map (fun v => (m.1, normalize0 red v))) := by
    intro row
    induction row with
    | nil => intro acc _; simp
    | cons m row ih =>
      intro acc hn
      obtain ⟨k, o⟩ := m
      have hsub : (OD.keys acc ++ row.map (·.1)).Nodup :=
        hn.sublist (List.Sublist.append_left (by simp) _)
      cases o with
      | none => simpa using ih acc hsub
      | some v =>
        have hm : k ∉ OD.keys acc := by
          intro hm
          exact (List.nodup_append.1 hn).2.2 _ hm _ (by simp) rfl
        simp only [List.foldl_cons]
        rw [OD.set_of_not_mem acc _ hm, ih]
        · simp
        · rw [OD.keys_append]
          simpa [OD.keys] using hn
  exact (key row [] (by simpa [OD.keys] using h)).trans (by simp)

theorem insertKey_sorted {V : Type} (p : Str × V) (l : List (Str × V))
    (hl : l.Pairwise (fun a b => strLt a.1 b.1 = true)) (hp : ∀ q ∈ l, p.1 ≠ q.1) :
    (insertKey p l).Pairwise (fun a b => strLt a.1 b.1 = true) := by
  induction l with
  | nil => simp [insertKey]
  | cons q r ih =>
    obtain ⟨h1, h2⟩ := List.pairwise_cons.1 hl
    simp only [insertKey]
    split
    · rename_i hlt
      refine List.pairwise_cons.2 ⟨fun x hx => ?_, hl⟩
      rcases List.mem_cons.1 hx with rfl | hx
      · exact hlt
      · exact strLt_trans _ _ _ hlt (h1 x hx)
    · rename_i hlt
      refine List.pairwise_cons.2 ⟨fun x hx => ?_, ih h2 (fun q hq => hp q (by simp [hq]))⟩
      rcases List.mem_cons.1 ((insertKey_perm p r).mem_iff.1 hx) with rfl | hx
      · rcases strLt_total x.1 q.1 with h | h | h
        · exact absurd h hlt
        · exact absurd h (hp q (by simp))
        · exact h
      · exact h1 x hx

theorem sortKeys_sorted {V : Type} (l : List (Str × V)) (h : (l.map (·.1)).Nodup) :
    (sortKeys l).Pairwise (fun a b => strLt a.1 b.1 = true) := by
  induction l with
  | nil => exact List.Pairwise.nil
  | cons p l ih =>
    obtain ⟨h1, h2⟩ := List.nodup_cons.1 h
    refine insertKey_sorted p _ (ih h2) fun q hq he => h1 ?_
    show p.1 ∈ _
    rw [he]
    exact List.mem_map_of_mem ((sortKeys_perm l).mem_iff.1 hq)

/-- A map becomes a dict with the same keys, in ascending order whatever the order in which the map
is traversed, and with the normalised values. -/
theorem C60_sorted (red : L → NV L P) (n : Nat) (d : List (Str × NV L P)) (h : (d.map (·.1)).Nodup) :
    ∃ e, normalize red (n + 1) (.map d) = .dict e ∧ e.Pairwise (fun a b => strLt a.1 b.1 = true) ∧
      e.Perm (d.map (fun p => (p.1, normalize red n p.2))) := by
  refine ⟨_, rfl, ?_, ?_⟩
  · rw [foldl_set_nodup (normalize red n) d h]
    exact sortKeys_sorted _ (by simpa [List.map_map, Function.comp_def] using h)
  · rw [foldl_set_nodup (normalize red n) d h]
    exact sortKeys_perm _

example : normalize0 (L := Unit) (P := Nat) (fun _ => .nul) (.map [(bs "b", .plain 1), (bs "a", .plain 2)]) =
    .dict [(bs "a", .plain 2), (bs "b", .plain 1)] := rfl

example : rowToDict (L := Unit) (P := Nat) (fun _ => .plain 7)
    [(bs "b", some (.lazy ())), (bs "a", some (.arr [.plain 1, .nul])), (bs "c", none)] =
    [(bs "b", .plain 7), (bs "a", .arr [.plain 1, .nul])] := rfl
/-- A list nested 12 deep, and the path to its innermost element. -/
example : SubV (L := Unit) (P := Nat) (fun _ => .nul) (.arr [.arr [.plain 1]]) [.idx 0, .idx 0] (.plain 1) :=
  .idx rfl (.idx rfl .here)
example : Tame (L := Unit) (P := Nat) (.arr [.lazy (), .dict [(bs "a", .plain 1)]]) := by
  refine .arr ?_
  intro v hv
  simp at hv
  rcases hv with rfl | rfl
  · exact .lazy
  · exact .dict (by intro p hp; simp at hp; subst hp; exact .plain)

end Vfilter
