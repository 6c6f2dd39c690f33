import Verif.ThrottleScopes
import Verif.Props.RowScopes
/-!
# C100: which scopes a throttler slows down, and for how long
-/
set_option linter.all false

namespace Vfilter.ThrottleScopes

open Vfilter.RowScopes

section
variable {R V : Type} [Inhabited R] {grow : Nat → Nat}

/-- The calls on scopes that a call makes. -/
def plain : TOp R V → SOp R V
  | .op o => o
  | .newFrom _ null => .new null
  | .set s t => .addDtor s (.mk t [])

theorem step_hist (x : TSt R V) (o : TOp R V) : (x.step grow o).hist = x.hist.step grow (plain o) := by
  cases o with
  | op o => cases o <;> rfl
  | newFrom s n => rfl
  | set s t => rfl

theorem foldl_hist (ops : List (TOp R V)) (x : TSt R V) :
    (ops.foldl (TSt.step grow) x).hist = x.hist.does grow (ops.map plain) := by
  induction ops generalizing x with
  | nil => rfl
  | cons o ops ih => rw [List.foldl_cons, ih, step_hist]; rfl

theorem run_hist (ops : List (TOp R V)) : (run grow ops).hist = Hist.run grow (ops.map plain) := foldl_hist ops _

theorem run_snoc (ops : List (TOp R V)) (o : TOp R V) : run grow (ops ++ [o]) = (run grow ops).step grow o := by
  unfold run; rw [List.foldl_append]; rfl

/-- The number of scopes. -/
def size (x : TSt R V) : Nat := x.hist.next

theorem step_size (x : TSt R V) (hi : CInv x.hist.heap) (o : TOp R V) : size x ≤ size (x.step grow o) := by
  unfold size; rw [step_hist]; exact (does_keeps (grow := grow) hi [plain o]).1

theorem step_CInv' (x : TSt R V) (hi : CInv x.hist.heap) (o : TOp R V) : CInv (x.step grow o).hist.heap := by
  rw [step_hist]; exact does_CInv (grow := grow) hi [plain o]

theorem run_CInv' (ops : List (TOp R V)) : CInv (run grow ops).hist.heap := by
  rw [run_hist]; exact run_heap_CInv _

theorem step_thr (x : TSt R V) (o : TOp R V) {s : Nat} (hs : s < size x) (h : ∀ t, o ≠ .set s t) :
    (x.step grow o).thr s = x.thr s := by
  have hne : s ≠ x.hist.next := by unfold size at hs; omega
  cases o with
  | op o => cases o <;> simp [TSt.step, put, hne]
  | newFrom u n => simp [TSt.step, put, hne]
  | set u t =>
    have : s ≠ u := fun e => h t (by rw [e])
    simp [TSt.step, put, this]

/-- **C100, what changes nothing**: the throttler that a scope charges stays the same until `SetThrottler` is called on
this very scope, whatever is done to it otherwise (it may be closed), to its copies, to the scope it was copied from
and to others. -/
theorem C100_stays (grow : Nat → Nat) (ops rest : List (TOp R V)) (s : Nat) (hs : s < size (run grow ops))
    (h : ∀ t, TOp.set s t ∉ rest) : (run grow (ops ++ rest)).charged s = (run grow ops).charged s := by
  have : ∀ (rest : List (TOp R V)) (x : TSt R V), CInv x.hist.heap → s < size x → (∀ t, TOp.set s t ∉ rest) →
      (rest.foldl (TSt.step grow) x).thr s = x.thr s := by
    intro rest
    induction rest with
    | nil => intros; rfl
    | cons o rest ih =>
      intro x hi hs h
      rw [List.foldl_cons, ih _ (step_CInv' x hi o) (Nat.lt_of_lt_of_le hs (step_size x hi o))
        (fun t ht => h t (List.mem_cons_of_mem _ ht))]
      exact step_thr x o hs (fun t e => h t (e ▸ List.mem_cons_self))
  unfold run TSt.charged
  rw [List.foldl_append]
  exact this rest _ (run_CInv' ops) hs h

/-- **C100, what sets it**: after `SetThrottler` the scope charges the given throttler. -/
theorem C100_set (grow : Nat → Nat) (ops : List (TOp R V)) (s t : Nat) :
    (run grow (ops ++ [.set s t])).charged s = some t := by
  rw [run_snoc]; simp [TSt.step, TSt.charged, put]

/-- **C100, new scopes**: a copy and a scope made by the method `NewScope` charge the throttler that the scope they
are made from charges at this moment; scopes made by the factory charge none. -/
theorem C100_new (grow : Nat → Nat) (ops : List (TOp R V)) (s : Nat) (hs : s < size (run grow ops)) (null : R) :
    let n := size (run grow ops)
    (size (run grow (ops ++ [.op (.copy s)])) = n + 1 ∧
      (run grow (ops ++ [.op (.copy s)])).charged n = (run grow ops).charged s) ∧
    (size (run grow (ops ++ [.newFrom s null])) = n + 1 ∧
      (run grow (ops ++ [.newFrom s null])).charged n = (run grow ops).charged s) ∧
    (size (run grow (ops ++ [.op (.new null)])) = n + 1 ∧
      (run grow (ops ++ [.op (.new null)])).charged n = none) := by
  intro n
  simp only [run_snoc]
  refine ⟨⟨?_, ?_⟩, ⟨?_, ?_⟩, ?_, ?_⟩
  · unfold size; rw [step_hist]; exact (copied (grow := grow) hs).1
  · simp [TSt.step, TSt.charged, put, n, size]
  · unfold size; rw [step_hist]; simp [plain, Hist.step, Hist.next, Heap.step, Heap.newScope, n, size]
  · simp [TSt.step, TSt.charged, put, n, size]
  · unfold size; rw [step_hist]; simp [plain, Hist.step, Hist.next, Heap.step, Heap.newScope, n, size]
  · simp [TSt.step, TSt.charged, put, n, size]

/-! ## When it is closed -/

/-- Destructors of the application register nothing that goes on for more than ten rounds (C20). -/
def Shallow' (ops : List (TOp R V)) : Prop := ∀ s d, TOp.op (.addDtor s d) ∈ ops → d.height ≤ 10

theorem shallow_plain {ops : List (TOp R V)} (h : Shallow' ops) : ShallowOps (ops.map plain) := by
  intro s d hd
  obtain ⟨o, ho, e⟩ := List.mem_map.1 hd
  cases o with
  | op o => cases e; exact h s d ho
  | newFrom u n => cases e
  | set u t => cases e; simp [Dtor.height, Dtor.height.heightL]

theorem mem_regOf {l : List (Nat × Dtor)} {s t : Nat} (h : (s, Dtor.mk t []) ∈ l) : t ∈ regOf l s := by
  unfold regOf
  have : Dtor.mk t [] ∈ (l.filter (fun x => decide (x.1 = s))).map (·.2) :=
    List.mem_map.2 ⟨_, List.mem_filter.2 ⟨h, by simp⟩, rfl⟩
  generalize (l.filter (fun x => decide (x.1 = s))).map (·.2) = m at this
  induction m with
  | nil => cases this
  | cons d m ih =>
    rcases List.mem_cons.1 this with e | e
    · subst e; simp [Dtor.nodes.nodesL, Dtor.nodes]
    · exact List.mem_append_right _ (ih e)

/-- **C100, the end**: a throttler that was set on an open scope has been closed once this scope is closed. -/
theorem C100_closed (grow : Nat → Nat) (ops rest : List (TOp R V)) (s t : Nat)
    (ho : (run grow ops).hist.heap.opn s = true) (hsh : Shallow' (ops ++ .set s t :: rest))
    (hc : (run grow (ops ++ .set s t :: rest)).hist.heap.opn s = false) :
    (run grow (ops ++ .set s t :: rest)).closed t := by
  have hreg : (s, Dtor.mk t []) ∈ (run grow (ops ++ .set s t :: rest)).hist.registered := by
    unfold run; rw [List.foldl_append, List.foldl_cons, foldl_hist]
    refine does_registered _ _ ?_
    rw [step_hist]
    have := accepts ho (.mk t [])
    change _ ∈ (if (Heap.addDtor (run grow ops).hist.heap s (.mk t [])).2 = true then
      (run grow ops).hist.registered ++ [(s, Dtor.mk t [])] else _)
    rw [if_pos this]; simp
  have hp : (ranOf (run grow (ops ++ .set s t :: rest)).hist.ran s).Perm
      (regOf (run grow (ops ++ .set s t :: rest)).hist.registered s) := by
    refine all_ran ?_ ?_ hc
    · rw [run_hist]; exact run_conserved _
    · rw [run_hist]; exact run_tidy _ (shallow_plain hsh)
  have hm := hp.mem_iff.2 (mem_regOf hreg)
  unfold ranOf at hm
  obtain ⟨⟨a, b⟩, h1, h2⟩ := List.mem_map.1 hm
  obtain ⟨h3, h4⟩ := List.mem_filter.1 h1
  simp at h4 h2; subst h4; subst h2
  exact ⟨_, h3⟩

theorem step_quiet (x : Hist R V) (hi : CInv x.heap) (hnew : ∀ t, x.next ≤ t → ranOf x.ran t = [])
    (hq : ∀ t, x.heap.opn t = true → ranOf x.ran t = []) (op : SOp R V) (t : Nat)
    (ho : (x.step grow op).heap.opn t = true) : ranOf (x.step grow op).ran t = [] := by
  have before : ranOf x.ran t = [] := by
    rcases Nat.lt_or_ge t x.next with h | h
    · exact hq t (((step_shape (grow := grow) x.heap hi op).opn_of t h) (by rw [← Hist.step_heap]; exact ho))
    · exact hnew t h
  cases op with
  | close s =>
    change ranOf (x.ran ++ (x.heap.close s).2) t = []
    change (x.heap.close s).1.opn t = true at ho
    unfold ranOf at before ⊢
    rw [List.filter_append, List.map_append, before, List.nil_append]
    cases hs : x.heap.scopes[s]? with
    | none => rw [close_out_of_range _ s hs]; rfl
    | some r =>
      have p := close_post x.heap s hi (getElem?_lt hs)
      have : (x.heap.close s).2.filter (fun y => decide (y.1 = t)) = [] := by
        rw [List.filter_eq_nil_iff]
        intro y hy e
        simp at e
        exact (p.opn_of t ho).2 (e ▸ p.log_out y hy)
      rw [this]; rfl
  | _ => exact before

theorem quiet (ops : List (SOp R V)) : ∀ t, (Hist.run grow ops).heap.opn t = true → ranOf (Hist.run grow ops).ran t = [] := by
  have : ∀ (l : List (SOp R V)), ∀ t, (Hist.run grow l.reverse).heap.opn t = true →
      ranOf (Hist.run grow l.reverse).ran t = [] := by
    intro l
    induction l with
    | nil => intro t _; rfl
    | cons o l ih =>
      intro t ho
      have e : Hist.run grow (o :: l).reverse = (Hist.run grow l.reverse).step grow o := by
        unfold Hist.run; rw [List.reverse_cons, List.foldl_append]; rfl
      rw [e] at ho ⊢
      exact step_quiet _ (run_heap_CInv _) (fun t ht => run_unborn _ ht) ih o t ho
  have h := this ops.reverse
  rwa [List.reverse_reverse] at h

/-- **C100, not before**: while all scopes that a throttler was set on are open, it is not closed (if no destructor of
the application has its number, that is, nobody else closes it). -/
theorem C100_not_before (grow : Nat → Nat) (ops : List (TOp R V)) (t : Nat)
    (hown : ∀ s d, TOp.op (.addDtor s d) ∈ ops → t ∉ d.nodes)
    (ho : ∀ s, TOp.set s t ∈ ops → (run grow ops).hist.heap.opn s = true) : ¬ (run grow ops).closed t := by
  rintro ⟨s, hs⟩
  have hran : t ∈ ranOf (run grow ops).hist.ran s :=
    List.mem_map.2 ⟨(s, t), List.mem_filter.2 ⟨hs, by simp⟩, rfl⟩
  have hc : Conserved (run grow ops).hist := by rw [run_hist]; exact run_conserved _
  have hreg := (hc s).mem_iff.1 (List.mem_append_left _ hran)
  have hsrc : ∀ (l : List (SOp R V)) (x : Hist R V), ∀ e ∈ (x.does grow l).registered, e ∈ x.registered ∨
      SOp.addDtor e.1 e.2 ∈ l := by
    intro l
    induction l with
    | nil => exact fun x e h => .inl h
    | cons o l ih =>
      intro x e he
      rcases ih (x.step grow o) e he with h | h
      · cases o with
        | addDtor u d =>
          change e ∈ (if _ then _ else _) at h
          split at h
          · rcases List.mem_append.1 h with h | h
            · exact .inl h
            · rw [List.mem_singleton] at h; subst h; exact .inr List.mem_cons_self
          · exact .inl h
        | _ => exact .inl h
      · exact .inr (List.mem_cons_of_mem _ h)
  have hm : ∃ d, (s, d) ∈ (run grow ops).hist.registered ∧ t ∈ d.nodes := by
    unfold regOf at hreg
    have : ∀ m : List Dtor, t ∈ Dtor.nodes.nodesL m → ∃ d ∈ m, t ∈ d.nodes := by
      intro m
      induction m with
      | nil => intro h; cases h
      | cons d m ih =>
        intro h
        rcases List.mem_append.1 h with h | h
        · exact ⟨d, List.mem_cons_self, h⟩
        · obtain ⟨d', h1, h2⟩ := ih h; exact ⟨d', List.mem_cons_of_mem _ h1, h2⟩
    obtain ⟨d, h1, h2⟩ := this _ hreg
    obtain ⟨⟨a, b⟩, h3, h4⟩ := List.mem_map.1 h1
    obtain ⟨h5, h6⟩ := List.mem_filter.1 h3
    simp at h4 h6; subst h4; subst h6
    exact ⟨_, h5, h2⟩
  obtain ⟨d, hd, hn⟩ := hm
  rw [run_hist] at hd
  rcases hsrc (ops.map plain) ⟨Heap.empty, [], []⟩ _ hd with h | h
  · cases h
  · obtain ⟨o, h1, h2⟩ := List.mem_map.1 h
    cases o with
    | op o => cases h2; exact hown _ _ h1 hn
    | newFrom u n => cases h2
    | set u t' =>
      cases h2
      simp [Dtor.nodes, Dtor.nodes.nodesL] at hn
      subst hn
      have hq := quiet (grow := grow) (ops.map plain) s (by rw [← run_hist]; exact ho s h1)
      rw [← run_hist] at hq
      rw [hq] at hran; cases hran

/-- **C100, on a closed scope**: `SetThrottler` on a scope that is closed sets the throttler, but registers nothing:
nothing that is done later on this scope makes it run `Close`. -/
theorem C100_set_late (grow : Nat → Nat) (ops rest : List (TOp R V)) (s t : Nat) (hs : s < size (run grow ops))
    (ho : (run grow ops).hist.heap.opn s = false) (hne : t ∉ regOf (run grow ops).hist.registered s) :
    (run grow (ops ++ [.set s t])).charged s = some t ∧
    (s, t) ∉ (run grow (ops ++ .set s t :: rest)).hist.ran := by
  refine ⟨C100_set grow ops s t, fun hm => ?_⟩
  have hran : t ∈ ranOf (run grow (ops ++ .set s t :: rest)).hist.ran s :=
    List.mem_map.2 ⟨(s, t), List.mem_filter.2 ⟨hm, by simp⟩, rfl⟩
  have hc : Conserved (run grow (ops ++ .set s t :: rest)).hist := by rw [run_hist]; exact run_conserved _
  have hreg := (hc s).mem_iff.1 (List.mem_append_left _ hran)
  have e : (run grow (ops ++ .set s t :: rest)).hist =
      (run grow ops).hist.does grow ((TOp.set s t :: rest).map plain) := by
    unfold run; rw [List.foldl_append, foldl_hist]
  rw [e, (reg_closed (grow := grow) (run_CInv' ops) hs ho _).2] at hreg
  exact hne hreg

/-- **C100, refuted for scopes there are already**: a query that runs on a copy of a scope is not slowed down by a
throttler that is set on the scope after the copy was made. -/
theorem C100_copies_refuted : ∃ (ops : List (TOp Unit Unit)) (t : Nat),
    let x := run (fun n => n) (ops ++ [.set 0 t])
    x.hist.heap.par 1 = some 0 ∧ x.hist.heap.opn 1 = true ∧ x.charged 0 = some t ∧ x.charged 1 = none :=
  ⟨[.op (.new ()), .op (.copy 0)], 7, by decide⟩

/-- **C100, refuted for scopes made with `NewScope`**: such a scope is still open and charges a throttler that is closed,
since the scope it was made from is; it is not slowed down any more (C58_closed_forever). -/
theorem C100_new_scope_refuted : ∃ (ops : List (TOp Unit Unit)) (t : Nat),
    let x := run (fun n => n) ops
    x.hist.heap.opn 1 = true ∧ x.charged 1 = some t ∧ (0, t) ∈ x.hist.ran :=
  ⟨[.op (.new ()), .set 0 7, .newFrom 0 (), .op (.close 0)], 7, by decide⟩

/-- **C100, refuted for closed scopes**: a throttler set on a closed scope is used by its copies and not closed, not even
when the root is. -/
theorem C100_leak_refuted : ∃ (ops : List (TOp Unit Unit)) (t : Nat),
    let x := run (fun n => n) ops
    x.hist.heap.opn 0 = false ∧ x.hist.heap.opn 1 = false ∧ x.charged 1 = some t ∧ x.charged 2 = some t ∧
    x.hist.ran = [] :=
  ⟨[.op (.new ()), .op (.copy 0), .op (.close 1), .set 1 7, .op (.copy 1), .op (.close 0)], 7, by decide⟩

/-- A throttler that is set, used by two copies, replaced on one of them, and closed with the root. -/
example : let ops : List (TOp Unit Unit) :=
      [.op (.new ()), .set 0 7, .op (.copy 0), .op (.copy 1), .set 1 8, .op (.copy 1), .op (.close 1), .op (.close 0)]
    let x := run (fun n => n) ops
    x.charged 0 = some 7 ∧ x.charged 1 = some 8 ∧ x.charged 2 = some 7 ∧ x.charged 3 = some 8 ∧
    x.hist.ran = [(1, 8), (0, 7)] ∧ x.hist.heap.opn 0 = false := by decide

/-- The conditions of C100_not_before: the root is open, and the throttler of a closed copy is another one. -/
example : let ops : List (TOp Unit Unit) := [.op (.new ()), .set 0 7, .op (.copy 0), .set 1 8, .op (.close 1)]
    (run (fun n => n) ops).hist.heap.opn 0 = true ∧ (run (fun n => n) ops).hist.ran = [(1, 8)] := by decide

end

/-! ## Two goroutines -/

theorem race_inv (old new : Iface) (sched : List Bool) : let f := race old new sched
    f.wr ≤ 2 ∧ f.ty = (if f.wr = 2 then old.ty else new.ty) ∧ f.data = (if f.wr = 0 then new.data else old.data) ∧
    (∀ t, f.gotTy = some t → t = old.ty ∨ t = new.ty) ∧ (∀ d, f.gotData = some d → d = old.data ∨ d = new.data) ∧
    (f.gotTy = none → f.gotData = none) ∧ (f.gotTy = some new.ty ∨ f.gotTy = none ∨ f.gotTy = some old.ty) := by
  have : ∀ (l : List Bool) (f : Field),
      (f.wr ≤ 2 ∧ f.ty = (if f.wr = 2 then old.ty else new.ty) ∧ f.data = (if f.wr = 0 then new.data else old.data) ∧
        (∀ t, f.gotTy = some t → t = old.ty ∨ t = new.ty) ∧ (∀ d, f.gotData = some d → d = old.data ∨ d = new.data) ∧
        (f.gotTy = none → f.gotData = none) ∧ (f.gotTy = some new.ty ∨ f.gotTy = none ∨ f.gotTy = some old.ty)) →
      let g := l.foldl (Field.step new) f
      g.wr ≤ 2 ∧ g.ty = (if g.wr = 2 then old.ty else new.ty) ∧ g.data = (if g.wr = 0 then new.data else old.data) ∧
        (∀ t, g.gotTy = some t → t = old.ty ∨ t = new.ty) ∧ (∀ d, g.gotData = some d → d = old.data ∨ d = new.data) ∧
        (g.gotTy = none → g.gotData = none) ∧ (g.gotTy = some new.ty ∨ g.gotTy = none ∨ g.gotTy = some old.ty) := by
    intro l
    induction l with
    | nil => exact fun f h => h
    | cons b l ih =>
      intro f h
      refine ih (f.step new b) ?_
      obtain ⟨ty, data, wr, gt, gd⟩ := f
      obtain ⟨h1, h2, h3, h4, h5, h6, h7⟩ := h
      simp only at h1 h2 h3 h4 h5 h6 h7
      cases b with
      | true =>
        have hw : wr = 0 ∨ wr = 1 ∨ wr = 2 := by omega
        rcases hw with rfl | rfl | rfl
        · exact ⟨h1, h2, h3, h4, h5, h6, h7⟩
        · refine ⟨by simp [Field.step], ?_, ?_, h4, h5, h6, h7⟩ <;> simp_all [Field.step]
        · refine ⟨by simp [Field.step], ?_, ?_, h4, h5, h6, h7⟩ <;> simp_all [Field.step]
      | false =>
        cases gt with
        | none =>
          have hd : ty = old.ty ∨ ty = new.ty := by rw [h2]; split <;> simp
          refine ⟨h1, h2, h3, ?_, h5, ?_, ?_⟩
          · intro t e; cases e; exact hd
          · intro e; cases e
          · rcases hd with e | e
            · exact .inr (.inr (by simp [Field.step, e]))
            · exact .inl (by simp [Field.step, e])
        | some t =>
          cases gd with
          | some d => exact ⟨h1, h2, h3, h4, h5, h6, h7⟩
          | none =>
            refine ⟨h1, h2, h3, h4, ?_, ?_, h7⟩
            · intro d e; cases e; show data = _ ∨ data = _; rw [h3]; split <;> simp
            · intro e; cases e
  exact this sched _ ⟨by simp, rfl, rfl, by simp, by simp, by simp, .inr (.inl rfl)⟩

/-- **C100, two goroutines**: if `SetThrottler` replaces a throttler by another one of the same type while `ChargeOp` is
called, one of the two is charged, on every schedule. -/
theorem C100_race_partial (old new : Iface) (hty : old.ty = new.ty) (sched : List Bool) {v : Iface}
    (h : (race old new sched).read = some v) : v = old ∨ v = new := by
  have i := race_inv old new sched
  obtain ⟨-, -, -, h4, h5, -, -⟩ := i
  unfold Field.read at h
  split at h
  · rename_i t d e1 e2
    cases h
    have ht : t = old.ty ∧ t = new.ty := by rcases h4 t e1 with e | e <;> simp [e, hty]
    rcases h5 d e2 with e | e
    · exact .inl (by rw [ht.1, e])
    · exact .inr (by rw [ht.2, e])
  · cases h

/-- **C100, refuted for two goroutines**: otherwise the method of the one type may be called with the data of the other, for
any two throttlers that differ in both words. -/
theorem C100_race_refuted (old new : Iface) (hty : old.ty ≠ new.ty) (hd : old.data ≠ new.data) :
    ∃ sched v, (race old new sched).read = some v ∧ v ≠ old ∧ v ≠ new := by
  refine ⟨[true, false, false], ⟨new.ty, old.data⟩, rfl, ?_, ?_⟩
  · intro e; exact hty (by rw [← e])
  · intro e; exact hd (by rw [← e])

/-- The first throttler is set while a row is charged: the method is called on nil. -/
example : (race ⟨0, 0⟩ ⟨1, 5⟩ [true, false, false]).read = some ⟨1, 0⟩ := rfl

example : (race ⟨1, 4⟩ ⟨1, 5⟩ [true, false, true, false]).read = some ⟨1, 5⟩ := rfl

end Vfilter.ThrottleScopes
