import Verif.ScopeLemmas
/-!
# C18 Innermost binding wins, C19 Child scopes are isolated
-/
set_option linter.all false

namespace Vfilter

/-! ## C18 -/

section
variable {R V : Type}

theorem resolveLoop_skip (assoc : R → Str → Option V × Bool) (nul : V) (field : Str)
    (post rest : List R) (d : Option V) (h : ∀ r ∈ post, (assoc r field).2 = false)
    (hd : d.isSome ∨ ∀ r ∈ post, (assoc r field).1 = none) :
    resolveLoop assoc nul field (post ++ rest) d = resolveLoop assoc nul field rest d := by
  induction post with
  | nil => rfl
  | cons r post ih =>
    have hr := h r (by simp)
    rcases hx : assoc r field with ⟨e, p⟩
    rw [hx] at hr
    simp only at hr
    subst hr
    simp only [List.cons_append, resolveLoop, hx]
    have : (if (e.isSome && d.isNone) = true then e else d) = d := by
      rcases hd with hd | hd
      · cases d <;> simp_all
      · have := hd r (by simp)
        rw [hx] at this
        simp only at this
        subst this
        simp
    rw [this]
    exact ih (fun r hr => h r (by simp [hr])) (hd.imp id (fun hd r hr => hd r (by simp [hr])))

/-- While no set contains the name, the loop keeps looking; the rest decides. -/
theorem resolveLoop_found (assoc : R → Str → Option V × Bool) (nul : V) (field : Str)
    (post rest : List R) (d : Option V) (r : R) (e : Option V)
    (h : ∀ r ∈ post, (assoc r field).2 = false) (hr : assoc r field = (e, true)) :
    resolveLoop assoc nul field (post ++ r :: rest) d = (some (e.getD nul), true) := by
  induction post generalizing d with
  | nil => simp [resolveLoop, hr]
  | cons q post ih =>
    have hq := h q (by simp)
    rcases hx : assoc q field with ⟨e', p⟩
    rw [hx] at hq
    simp only at hq
    subst hq
    simp only [List.cons_append, resolveLoop, hx]
    exact ih _ (fun r hr => h r (by simp [hr]))

/-- Resolving a name, in terms of the variable sets in the order they were appended:
the most recent set that contains it wins (NULL for nil); if none contains it, the
default of the most recent set that has one; otherwise the name is absent. -/
theorem C18_resolve (assoc : R → Str → Option V × Bool) (nul : V) (vars : List R) (field : Str) :
    (∀ pre r post e, vars = pre ++ r :: post → assoc r field = (e, true) →
      (∀ q ∈ post, (assoc q field).2 = false) →
      resolveVars assoc nul vars field = (some (e.getD nul), true)) ∧
    ((∀ q ∈ vars, (assoc q field).2 = false) →
      (∀ pre r post d, vars = pre ++ r :: post → assoc r field = (some d, false) →
        (∀ q ∈ post, (assoc q field).1 = none) →
        resolveVars assoc nul vars field = (some d, true)) ∧
      ((∀ q ∈ vars, (assoc q field).1 = none) → resolveVars assoc nul vars field = (none, false))) := by
  refine ⟨?_, ?_⟩
  · rintro pre r post e rfl hr hpost
    unfold resolveVars
    rw [List.reverse_append, List.reverse_cons, List.append_assoc]
    exact resolveLoop_found assoc nul field _ _ none r e (fun q hq => hpost q (by simpa using hq)) hr
  · intro hall
    refine ⟨?_, ?_⟩
    · rintro pre r post d rfl hr hpost
      unfold resolveVars
      rw [List.reverse_append, List.reverse_cons, List.append_assoc]
      rw [resolveLoop_skip assoc nul field _ _ none
        (fun q hq => hall q (by simp at hq; simp [hq]))
        (Or.inr (fun q hq => hpost q (by simpa using hq)))]
      simp only [List.singleton_append, resolveLoop, hr]
      have := resolveLoop_skip assoc nul field pre.reverse [] (some d)
        (fun q hq => hall q (by simp at hq; simp [hq])) (Or.inl rfl)
      simpa [resolveLoop] using this
    · intro hn
      unfold resolveVars
      have := resolveLoop_skip assoc nul field vars.reverse [] none
        (fun q hq => hall q (by simpa using hq)) (Or.inr (fun q hq => hn q (by simpa using hq)))
      simpa [resolveLoop] using this

/-- The lookup of a scope is the lookup in its variable sets, below the overflow limit;
at the limit every name is absent. -/
theorem C18_scope_resolve [Inhabited R] (assoc : R → Str → Option V × Bool) (nul : V) (h : Heap R V)
    (s : Nat) (r : ScopeRec) (hr : h.scopes[s]? = some r) (field : Str) :
    (r.depth < 1000 → h.resolve assoc nul s field = resolveVars assoc nul (h.view r.vars) field) ∧
    (1000 ≤ r.depth → h.resolve assoc nul s field = (some nul, false)) := by
  unfold Heap.resolve
  rw [hr]
  refine ⟨fun hd => by simp [hd], fun hd => ?_⟩
  have : ¬ r.depth < 1000 := by omega
  simp [this]

end

/-- A variable set for examples: entries and a default. -/
structure DSet where
  d : OD (Option Nat)
  dflt : Option Nat
deriving Inhabited

def DSet.assoc (s : DSet) (k : Str) : Option Nat × Bool :=
  match OD.get s.d k with
  | some v => (v, true)
  | none => (s.dflt, false)

example : resolveVars DSet.assoc 0 [⟨[(bs "x", some 1)], none⟩, ⟨[(bs "x", some 2)], some 9⟩,
    ⟨[(bs "y", none)], some 8⟩] (bs "x") = (some 2, true) := by decide
example : resolveVars DSet.assoc 0 [⟨[(bs "x", some 1)], none⟩, ⟨[(bs "x", some 2)], some 9⟩,
    ⟨[(bs "y", none)], some 8⟩] (bs "z") = (some 8, true) := by decide
example : resolveVars DSet.assoc 0 [⟨[(bs "y", none)], none⟩] (bs "y") = (some 0, true) := by decide

/-! ## C19 -/

section
variable {R V : Type} [Inhabited R]

/-- Specification by value: the variable sets visible in each scope, most recent last. -/
def visStep (vis : List (List R)) : SOp R V → List (List R)
  | .new null => vis ++ [[null]]
  | .copy s => match vis[s]? with
    | some l => vis ++ [l]
    | none => vis
  | .append s x => vis.modify s (fun l => l ++ [x])
  | _ => vis

/-- What the heap has to satisfy with respect to the specification: slices are in
bounds, no two scopes share a backing array, contents agree. -/
structure VInv (slices : List Slice) (arrays : List (List R)) (vis : List (List R)) : Prop where
  len : slices.length = vis.length
  bound : ∀ (i : Nat) sl, slices[i]? = some sl → ∃ a, arrays[sl.arr]? = some a ∧ sl.len ≤ a.length ∧
    vis[i]? = some (a.take sl.len)
  sep : ∀ (i j : Nat) sl sl', slices[i]? = some sl → slices[j]? = some sl' → i ≠ j → sl.arr ≠ sl'.arr

theorem VInv.push {slices : List Slice} {arrays vis : List (List R)} (h : VInv slices arrays vis)
    (a : List R) : VInv (slices ++ [⟨arrays.length, a.length⟩]) (arrays ++ [a]) (vis ++ [a]) := by
  have hlt : ∀ (i : Nat) sl, slices[i]? = some sl → sl.arr < arrays.length := by
    intro i sl hi
    obtain ⟨x, hx, _⟩ := h.bound i sl hi
    exact getElem?_lt hx
  have hcase : ∀ (i : Nat) sl, (slices ++ [⟨arrays.length, a.length⟩])[i]? = some sl →
      (slices[i]? = some sl ∧ i < slices.length) ∨ (i = slices.length ∧ sl = ⟨arrays.length, a.length⟩) := by
    intro i sl hi
    rcases Nat.lt_trichotomy i slices.length with hlt | heq | hgt
    · rw [List.getElem?_append_left hlt] at hi
      exact Or.inl ⟨hi, hlt⟩
    · subst heq; simp at hi; exact Or.inr ⟨rfl, hi.symm⟩
    · have := getElem?_lt hi
      simp at this; omega
  refine ⟨by simp [h.len], ?_, ?_⟩
  · intro i sl hi
    rcases hcase i sl hi with ⟨h1, h2⟩ | ⟨rfl, rfl⟩
    · obtain ⟨x, hx, hl, hv⟩ := h.bound i sl h1
      refine ⟨x, ?_, hl, ?_⟩
      · rw [List.getElem?_append_left (getElem?_lt hx)]; exact hx
      · rw [List.getElem?_append_left (getElem?_lt hv)]; exact hv
    · refine ⟨a, by simp, by simp, ?_⟩
      rw [h.len]; simp
  · intro i j sl sl' hi hj hij
    rcases hcase i sl hi with ⟨h1, h2⟩ | ⟨rfl, rfl⟩ <;> rcases hcase j sl' hj with ⟨h3, h4⟩ | ⟨rfl, rfl⟩
    · exact h.sep i j sl sl' h1 h3 hij
    · have := hlt i sl h1; simp; omega
    · have := hlt j sl' h3; simp; omega
    · exact absurd rfl hij

theorem VInv.append {slices : List Slice} {arrays vis : List (List R)} (h : VInv slices arrays vis)
    (grow : Nat → Nat) (s : Nat) (sl : Slice) (hs : slices[s]? = some sl) (x : R) :
    VInv (slices.set s (appendSlice grow arrays sl x).2) (appendSlice grow arrays sl x).1
      (vis.modify s (fun l => l ++ [x])) := by
  obtain ⟨a, ha, hlen, hv⟩ := h.bound s sl hs
  have hslt := getElem?_lt hs
  have halt := getElem?_lt ha
  have hset : ∀ (i : Nat) y sl', (slices.set s y)[i]? = some sl' →
      (i = s ∧ sl' = y) ∨ (i ≠ s ∧ slices[i]? = some sl') := by
    intro i y sl' hi
    rw [List.getElem?_set] at hi
    by_cases hsi : s = i
    · subst hsi
      simp [hslt] at hi
      exact Or.inl ⟨rfl, hi.symm⟩
    · simp [hsi] at hi
      exact Or.inr ⟨fun e => hsi e.symm, hi⟩
  unfold appendSlice
  rw [ha]
  simp only [Option.getD_some]
  by_cases hcap : sl.len < a.length
  · rw [if_pos hcap]
    refine ⟨by simp [h.len], ?_, ?_⟩
    · intro i sl' hi
      rcases hset i _ sl' hi with ⟨rfl, rfl⟩ | ⟨hne, hi'⟩
      · refine ⟨a.set sl.len x, by simp [halt], by simp; omega, ?_⟩
        rw [List.getElem?_modify, hv]
        simp only [Option.map_some, if_pos]
        congr 1
        simp [List.take_add_one, List.take_set_of_le, hcap]
      · obtain ⟨b, hb, hbl, hbv⟩ := h.bound i sl' hi'
        have := h.sep i s sl' sl hi' hs hne
        refine ⟨b, ?_, hbl, ?_⟩
        · simp only
          rw [List.getElem?_set_ne (by omega)]; exact hb
        · rw [List.getElem?_modify, hbv]; simp [Ne.symm hne]
    · intro i j sl1 sl2 hi hj hij
      rcases hset i _ sl1 hi with ⟨rfl, rfl⟩ | ⟨hne, hi'⟩ <;>
        rcases hset j _ sl2 hj with ⟨rfl, rfl⟩ | ⟨hne2, hj'⟩
      · exact absurd rfl hij
      · exact h.sep _ _ sl _ hs hj' hij
      · exact h.sep _ _ _ sl hi' hs hij
      · exact h.sep _ _ _ _ hi' hj' hij
  · rw [if_neg hcap]
    refine ⟨by simp [h.len], ?_, ?_⟩
    · intro i sl' hi
      rcases hset i _ sl' hi with ⟨rfl, rfl⟩ | ⟨hne, hi'⟩
      · refine ⟨a.take sl.len ++ x :: List.replicate (grow sl.len) default, by simp, by simp; omega, ?_⟩
        rw [List.getElem?_modify, hv]
        simp only [Option.map_some, if_pos]
        congr 1
        have hl : (a.take sl.len).length = sl.len := by simp; omega
        rw [List.take_append, hl]
        simp [List.take_take]
      · obtain ⟨b, hb, hbl, hbv⟩ := h.bound i sl' hi'
        refine ⟨b, ?_, hbl, ?_⟩
        · simp only
          rw [List.getElem?_append_left (getElem?_lt hb)]; exact hb
        · rw [List.getElem?_modify, hbv]; simp [Ne.symm hne]
    · intro i j sl1 sl2 hi hj hij
      have hbd : ∀ (i : Nat) sl', slices[i]? = some sl' → sl'.arr < arrays.length := by
        intro i sl' hi
        obtain ⟨b, hb, _⟩ := h.bound i sl' hi
        exact getElem?_lt hb
      rcases hset i _ sl1 hi with ⟨rfl, rfl⟩ | ⟨hne, hi'⟩ <;>
        rcases hset j _ sl2 hj with ⟨rfl, rfl⟩ | ⟨hne2, hj'⟩
      · exact absurd rfl hij
      · have := hbd _ _ hj'; simp; omega
      · have := hbd _ _ hi'; simp; omega
      · exact h.sep _ _ _ _ hi' hj' hij

theorem close_slices (h : Heap R V) (s : Nat) :
    (h.close s).1.scopes.map (·.vars) = h.scopes.map (·.vars) ∧ (h.close s).1.arrays = h.arrays := by
  obtain ⟨h1, h2, _⟩ := closeF_fixed (h.scopes.length + 1) h s
  exact ⟨map_of_fixed _ _ (fun x => x.1) h1, h2⟩

theorem step_VInv (grow : Nat → Nat) (h : Heap R V) (vis : List (List R))
    (hv : VInv (h.scopes.map (·.vars)) h.arrays vis) (op : SOp R V) :
    VInv ((h.step grow op).scopes.map (·.vars)) (h.step grow op).arrays (visStep vis op) := by
  have hsl : ∀ (s : Nat) r, h.scopes[s]? = some r → (h.scopes.map (·.vars))[s]? = some r.vars := by
    intro s r hr; simp [hr]
  cases op with
  | new null =>
    simp only [Heap.step, Heap.newScope, visStep, List.map_append, List.map_cons, List.map_nil]
    exact hv.push [null]
  | copy s =>
    simp only [Heap.step, Heap.copy, visStep]
    cases hr : h.scopes[s]? with
    | none =>
      have : vis[s]? = none := by
        rw [List.getElem?_eq_none_iff] at hr ⊢
        have := hv.len; simp at this; omega
      rw [this]; exact hv
    | some r =>
      obtain ⟨a, ha, hl, hvs⟩ := hv.bound s r.vars (hsl s r hr)
      rw [hvs]
      simp only [List.map_append, List.map_cons, List.map_nil]
      rw [set_map_eq h.scopes s r _ (·.vars) hr (by rfl)]
      have hview : h.view r.vars = a.take r.vars.len := by simp [Heap.view, ha]
      rw [hview]
      have hlen : (a.take r.vars.len).length = r.vars.len := by simp; omega
      have := hv.push (a.take r.vars.len)
      rw [hlen] at this
      exact this
  | append s x =>
    simp only [Heap.step, Heap.appendVars, visStep]
    cases hr : h.scopes[s]? with
    | none =>
      have hge : h.scopes.length ≤ s := by rwa [List.getElem?_eq_none_iff] at hr
      have hlen := hv.len
      simp only [List.length_map] at hlen
      have : vis.modify s (fun l => l ++ [x]) = vis := by
        apply List.ext_getElem?
        intro j
        rw [List.getElem?_modify]
        by_cases hj : s = j
        · subst hj
          have : vis[s]? = none := by rw [List.getElem?_eq_none_iff]; omega
          simp [this]
        · simp [hj]
      rw [this]; exact hv
    | some r =>
      simp only
      rw [List.map_set]
      exact hv.append grow s r.vars (hsl s r hr) x
  | newAg s =>
    simp only [Heap.step, Heap.setNewAg, visStep]
    cases hr : h.scopes[s]? with
    | none => exact hv
    | some r => simp only; rw [set_map_eq h.scopes s r _ (·.vars) hr (by rfl)]; exact hv
  | setAg s c =>
    simp only [Heap.step, Heap.setAg, visStep]
    split
    · cases hr : h.scopes[s]? with
      | none => exact hv
      | some r => simp only; rw [set_map_eq h.scopes s r _ (·.vars) hr (by rfl)]; exact hv
    · exact hv
  | modAg s name f =>
    simp only [Heap.step, Heap.modifyAg, visStep]
    cases h.getAg s with
    | none => exact hv
    | some c => simp only; cases h.ctxs[c]? <;> exact hv
  | addDtor s d =>
    simp only [Heap.step, Heap.addDtor, visStep]
    cases hr : h.scopes[s]? with
    | none => exact hv
    | some r =>
      simp only
      split
      · exact hv
      · simp only; rw [set_map_eq h.scopes s r _ (·.vars) hr (by rfl)]; exact hv
  | close s =>
    simp only [Heap.step, visStep]
    obtain ⟨h1, h2⟩ := close_slices h s
    rw [h1, h2]; exact hv

theorem run_VInv (grow : Nat → Nat) (ops : List (SOp R V)) :
    VInv ((Heap.run grow ops).scopes.map (·.vars)) (Heap.run grow ops).arrays (ops.foldl visStep []) := by
  have : ∀ (ops : List (SOp R V)) (h : Heap R V) vis, VInv (h.scopes.map (·.vars)) h.arrays vis →
      VInv ((ops.foldl (Heap.step grow) h).scopes.map (·.vars)) (ops.foldl (Heap.step grow) h).arrays
        (ops.foldl visStep vis) := by
    intro ops
    induction ops with
    | nil => intro h vis hv; exact hv
    | cons op r ih => intro h vis hv; exact ih _ _ (step_VInv grow h vis hv op)
  exact this ops Heap.empty [] ⟨rfl, by simp [Heap.empty], by simp [Heap.empty]⟩

/-- For every history of scope operations and every capacity policy of `append`, the
variable sets a scope sees are those given by the value specification `visStep`: the
sets of the scope it was copied from at that time followed by those appended to it. -/
theorem C19_visible (grow : Nat → Nat) (ops : List (SOp R V)) (s : Nat) (r : ScopeRec)
    (hr : (Heap.run grow ops).scopes[s]? = some r) :
    (ops.foldl visStep [])[s]? = some ((Heap.run grow ops).view r.vars) := by
  have hv := run_VInv grow ops
  obtain ⟨a, ha, hl, hvs⟩ := hv.bound s r.vars (by simp [hr])
  rw [hvs]; simp [Heap.view, ha]

/-- The sets appended to scope `t` in a history, in order. -/
def appendedTo (t : Nat) : List (SOp R V) → List R
  | [] => []
  | .append s x :: ops => if s = t then x :: appendedTo t ops else appendedTo t ops
  | _ :: ops => appendedTo t ops

theorem vis_evolves (t : Nat) (ops : List (SOp R V)) (vis : List (List R)) (l : List R)
    (h : vis[t]? = some l) : (ops.foldl visStep vis)[t]? = some (l ++ appendedTo t ops) := by
  induction ops generalizing vis l with
  | nil => simpa [appendedTo] using h
  | cons op r ih =>
    have hpush : ∀ x : List R, (vis ++ [x])[t]? = some l := by
      intro x; rw [List.getElem?_append_left (getElem?_lt h)]; exact h
    cases op with
    | new null => simp only [List.foldl_cons, visStep, appendedTo]; exact ih _ _ (hpush _)
    | copy s =>
      simp only [List.foldl_cons, visStep, appendedTo]
      cases vis[s]? with
      | none => exact ih _ _ h
      | some q => exact ih _ _ (hpush _)
    | append s x =>
      simp only [List.foldl_cons, visStep, appendedTo]
      by_cases hst : s = t
      · subst hst
        rw [if_pos rfl]
        have := ih (vis.modify s (fun l => l ++ [x])) (l ++ [x]) (by rw [List.getElem?_modify, h]; simp)
        rw [this]; simp
      · rw [if_neg hst]
        exact ih _ _ (by rw [List.getElem?_modify, h]; simp [hst])
    | _ => simp only [List.foldl_cons, visStep, appendedTo]; exact ih _ _ h

/-- Isolation: after any further history, a scope sees what it saw before, followed by
exactly the sets appended to that scope itself.  Appends to its parent, its children or
any other scope are never visible in it. -/
theorem C19_isolated (grow : Nat → Nat) (ops ops' : List (SOp R V)) (t : Nat) (r r' : ScopeRec)
    (h1 : (Heap.run grow ops).scopes[t]? = some r)
    (h2 : (Heap.run grow (ops ++ ops')).scopes[t]? = some r') :
    (Heap.run grow (ops ++ ops')).view r'.vars =
      (Heap.run grow ops).view r.vars ++ appendedTo t ops' := by
  have e1 := C19_visible grow ops t r h1
  have e2 := C19_visible grow (ops ++ ops') t r' h2
  rw [List.foldl_append, vis_evolves t ops' _ _ e1] at e2
  simpa using e2.symm

/-- A fresh copy sees exactly what the original sees at that moment, and later, after any
history, that followed by its own appends: what was visible stays visible unless
shadowed by the copy's own sets. -/
theorem C19_copy (grow : Nat → Nat) (ops ops' : List (SOp R V)) (s : Nat) (r r' : ScopeRec)
    (h1 : (Heap.run grow ops).scopes[s]? = some r)
    (h2 : (Heap.run grow (ops ++ .copy s :: ops')).scopes[(Heap.run grow ops).scopes.length]? = some r') :
    (Heap.run grow (ops ++ .copy s :: ops')).view r'.vars =
      (Heap.run grow ops).view r.vars ++ appendedTo (Heap.run grow ops).scopes.length ops' := by
  have e1 := C19_visible grow ops s r h1
  have e2 := C19_visible grow (ops ++ .copy s :: ops') _ r' h2
  have hlen := (run_VInv grow ops).len
  simp only [List.length_map] at hlen
  rw [List.foldl_append, List.foldl_cons] at e2
  have hc : (visStep (List.foldl visStep [] ops) (SOp.copy s : SOp R V))[(Heap.run grow ops).scopes.length]? =
      some ((Heap.run grow ops).view r.vars) := by
    simp only [visStep, e1]
    rw [hlen]; simp
  rw [vis_evolves _ ops' _ _ hc] at e2
  simpa using e2.symm

/-- A snapshot of a scope's variables taken by `Resolve` before a concurrent operation on
any scope keeps its contents: no operation writes into the part of a backing array that
a scope can see. -/
theorem C19_snapshot_stable (grow : Nat → Nat) (ops : List (SOp R V)) (op : SOp R V) (t : Nat)
    (r : ScopeRec) (h1 : (Heap.run grow ops).scopes[t]? = some r) :
    ((Heap.run grow ops).step grow op).view r.vars = (Heap.run grow ops).view r.vars := by
  have hv := run_VInv grow ops
  generalize Heap.run grow ops = h at *
  obtain ⟨a, ha, hl, hvs⟩ := hv.bound t r.vars (by simp [h1])
  have hpush : ∀ x : List R, (h.arrays ++ [x])[r.vars.arr]? = some a := by
    intro x; rw [List.getElem?_append_left (getElem?_lt ha)]; exact ha
  cases op with
  | new null => simp [Heap.step, Heap.newScope, Heap.view, hpush, ha]
  | copy s =>
    simp only [Heap.step, Heap.copy]
    cases h.scopes[s]? with
    | none => rfl
    | some q => simp [Heap.view, hpush, ha]
  | append s x =>
    simp only [Heap.step, Heap.appendVars]
    cases hs : h.scopes[s]? with
    | none => rfl
    | some q =>
      simp only [appendSlice]
      obtain ⟨b, hb, hbl, _⟩ := hv.bound s q.vars (by simp [hs])
      rw [hb]
      simp only [Option.getD_some]
      by_cases hcap : q.vars.len < b.length
      · rw [if_pos hcap]
        by_cases hst : s = t
        · subst hst
          rw [h1] at hs
          cases hs
          rw [ha] at hb
          cases hb
          have halt := getElem?_lt ha
          simp only [Heap.view, ha]
          rw [List.getElem?_set_self halt]
          simp [List.take_set_of_le]
        · have := hv.sep s t q.vars r.vars (by simp [hs]) (by simp [h1]) hst
          simp only [Heap.view]
          rw [List.getElem?_set_ne this]
      · rw [if_neg hcap]
        simp [Heap.view, hpush, ha]
  | newAg s =>
    simp only [Heap.step, Heap.setNewAg]
    cases h.scopes[s]? <;> rfl
  | setAg s c =>
    simp only [Heap.step, Heap.setAg]
    split
    · cases h.scopes[s]? <;> rfl
    · rfl
  | modAg s name f =>
    simp only [Heap.step, Heap.modifyAg]
    cases h.getAg s with
    | none => rfl
    | some c => simp only; cases h.ctxs[c]? <;> rfl
  | addDtor s d =>
    simp only [Heap.step, Heap.addDtor]
    cases h.scopes[s]? with
    | none => rfl
    | some q => simp only; split <;> rfl
  | close s => simp [Heap.step, Heap.view, (close_slices h s).2]

end

/-- A history with copies, interleaved appends with and without spare capacity. -/
def exOps : List (SOp Nat Nat) :=
  [.new 0, .append 0 1, .append 0 2, .copy 0, .append 1 10, .append 0 3, .copy 1, .append 2 20,
   .append 1 11, .close 1]

example : (exOps.foldl visStep []) = [[0, 1, 2, 3], [0, 1, 2, 10, 11], [0, 1, 2, 10, 20]] := by decide
example : ((Heap.run (fun n => n) exOps).scopes.map (fun r => (Heap.run (fun n => n) exOps).view r.vars)) =
    [[0, 1, 2, 3], [0, 1, 2, 10, 11], [0, 1, 2, 10, 20]] := by decide

end Vfilter
