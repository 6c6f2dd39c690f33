import Verif.Base
/-!
# Facts about ordered dicts
-/

set_option linter.all false

namespace Vfilter.OD
variable {V : Type _}

theorem get_append (a b : OD V) (k : Str) : get (a ++ b) k = (get a k).or (get b k) := by
  induction a with
  | nil => simp [get]
  | cons p a ih =>
    obtain ⟨k', v⟩ := p
    simp only [List.cons_append, get]
    split
    · rfl
    · exact ih

theorem get_erase_self (d : OD V) (k : Str) : get (erase d k) k = none := by
  induction d with
  | nil => rfl
  | cons p d ih =>
    obtain ⟨k', v⟩ := p
    unfold erase at ih ⊢
    rw [List.filter_cons]
    split
    · rename_i h
      simp only [decide_eq_true_eq] at h
      simp only [get]
      rw [if_neg h]; exact ih
    · exact ih

theorem get_erase_ne (d : OD V) {k k' : Str} (h : k' ≠ k) : get (erase d k) k' = get d k' := by
  induction d with
  | nil => rfl
  | cons p d ih =>
    obtain ⟨k1, v⟩ := p
    unfold erase at ih ⊢
    rw [List.filter_cons]
    split
    · simp only [get, ih]
    · rename_i h1
      simp only [decide_eq_true_eq, Decidable.not_not] at h1
      simp only [get]
      rw [if_neg (by rintro rfl; exact h h1), ih]

theorem get_set_self (d : OD V) (k : Str) (v : V) : get (set d k v) k = some v := by
  unfold set
  rw [get_append, get_erase_self]
  simp [get]

theorem get_set_ne (d : OD V) {k k' : Str} (v : V) (h : k' ≠ k) : get (set d k v) k' = get d k' := by
  unfold set
  rw [get_append, get_erase_ne d h]
  simp only [get]
  rw [if_neg (Ne.symm h)]
  cases get d k' <;> rfl

theorem erase_of_not_mem (d : OD V) {k : Str} (h : k ∉ keys d) : erase d k = d := by
  unfold erase keys at *
  rw [List.filter_eq_self]
  intro p hp
  simp only [decide_eq_true_eq]
  intro he
  exact h (List.mem_map.2 ⟨p, hp, he⟩)

theorem mem_keys_iff (d : OD V) (k : Str) : k ∈ keys d ↔ ∃ v, get d k = some v := by
  induction d with
  | nil => simp [keys, get]
  | cons p d ih =>
    obtain ⟨k', v⟩ := p
    have : keys ((k', v) :: d) = k' :: keys d := rfl
    rw [this]
    simp only [List.mem_cons, get]
    by_cases hk : k' = k
    · simp [hk]
    · rw [if_neg hk, ← ih]
      constructor
      · rintro (h | h)
        · exact absurd h.symm hk
        · exact h
      · exact Or.inr

theorem set_of_not_mem (d : OD V) {k : Str} (v : V) (h : k ∉ keys d) : set d k v = d ++ [(k, v)] := by
  unfold set; rw [erase_of_not_mem d h]

theorem keys_append (a b : OD V) : keys (a ++ b) = keys a ++ keys b := by simp [keys]

theorem mergeFrom_append (d other : OD V) (h : (keys (d ++ other)).Nodup) : mergeFrom d other = d ++ other := by
  induction other generalizing d with
  | nil => simp [mergeFrom]
  | cons p other ih =>
    obtain ⟨k, v⟩ := p
    have hk : k ∉ keys d := by
      rw [keys_append] at h
      have := List.nodup_append.1 h
      intro hm
      exact this.2.2 k hm k (by simp [keys]) rfl
    have e : mergeFrom d ((k, v) :: other) = mergeFrom (set d k v) other := rfl
    rw [e, set_of_not_mem d v hk]
    have := ih (d ++ [(k, v)]) (by simpa using h)
    rw [this]; simp

/-- Merging a dict into a new one copies it. -/
theorem mergeFrom_nil (d : OD V) (h : WF d) : mergeFrom [] d = d := by
  simpa using mergeFrom_append [] d (by simpa [WF] using h)

theorem get_of_mem {d : OD V} (h : WF d) {k : Str} {v : V} (hm : (k, v) ∈ d) : get d k = some v := by
  induction d with
  | nil => simp at hm
  | cons p d ih =>
    obtain ⟨k', v'⟩ := p
    unfold WF at h
    have hk : keys ((k', v') :: d) = k' :: keys d := rfl
    rw [hk, List.nodup_cons] at h
    simp only [get]
    rcases List.mem_cons.1 hm with he | hm
    · cases he; rw [if_pos rfl]
    · rw [if_neg ?_]
      · exact ih h.2 hm
      · rintro rfl
        exact h.1 (List.mem_map.2 ⟨_, hm, rfl⟩)

theorem mem_of_get {d : OD V} {k : Str} {v : V} (h : get d k = some v) : (k, v) ∈ d := by
  induction d with
  | nil => simp [get] at h
  | cons p d ih =>
    obtain ⟨k', v'⟩ := p
    simp only [get] at h
    split at h
    · rename_i hk; cases h; subst hk; simp
    · exact List.mem_cons_of_mem _ (ih h)

/-- Updating a present column in place. -/
theorem update_mid (pre post : OD V) (k : Str) (v w : V) (h : WF (pre ++ (k, v) :: post)) :
    update (pre ++ (k, v) :: post) k w = pre ++ (k, w) :: post := by
  unfold update
  rw [if_pos (by simp)]
  have hk : k ∉ keys pre ∧ k ∉ keys post := by
    unfold WF at h
    rw [keys_append] at h
    have hk : keys ((k, v) :: post) = k :: keys post := rfl
    rw [hk] at h
    have := List.nodup_append.1 h
    refine ⟨fun hm => this.2.2 k hm k (by simp) rfl, ?_⟩
    exact (List.nodup_cons.1 this.2.1).1
  have hmap : ∀ l : OD V, k ∉ keys l → l.map (fun p => if p.1 = k then (k, w) else p) = l := by
    intro l hl
    induction l with
    | nil => rfl
    | cons p l ih =>
      have e : keys (p :: l) = p.1 :: keys l := rfl
      rw [e] at hl
      simp only [List.mem_cons, not_or] at hl
      rw [List.map_cons, if_neg (fun e => hl.1 e.symm), ih hl.2]
  rw [List.map_append, List.map_cons, hmap pre hk.1, hmap post hk.2]
  simp

theorem keys_set_nodup {d : OD V} (h : WF d) (k : Str) (v : V) : WF (set d k v) := by
  unfold WF set
  rw [keys_append]
  refine List.nodup_append.2 ⟨?_, by simp [keys], ?_⟩
  · unfold keys erase
    exact List.Nodup.sublist (List.Sublist.map _ List.filter_sublist) h
  · intro a ha b hb
    simp [keys] at hb
    subst hb
    rintro rfl
    have := (mem_keys_iff _ _).1 ha
    rw [get_erase_self] at this
    obtain ⟨v, hv⟩ := this
    cases hv

theorem wf_nil : WF ([] : OD V) := by simp [WF, keys]

theorem mergeFrom_wf (d other : OD V) (h : WF d) : WF (mergeFrom d other) := by
  induction other generalizing d with
  | nil => exact h
  | cons p other ih => exact ih _ (keys_set_nodup h _ _)

theorem keys_set_mem (d : OD V) (k k' : Str) (v : V) : k' ∈ keys (set d k v) ↔ k' = k ∨ k' ∈ keys d := by
  rw [mem_keys_iff, mem_keys_iff]
  by_cases h : k' = k
  · subst h; rw [get_set_self]; simp
  · rw [get_set_ne d v h]; simp [h]

end Vfilter.OD
