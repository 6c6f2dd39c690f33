import Verif.Dispatch
import Verif.ODLemmas
import Verif.Props.Compare
import Verif.Props.Split
/-!
# C65: registrations are seen by exactly the scopes that share them
-/

set_option linter.all false

namespace Vfilter.Disp

/-! ## Shared cells

What a history of calls means for one kind of registered thing, without dispatchers,
maps or references: every scope has one cell, some scopes have the same. -/

/-- What a call does to the cells. -/
inductive COp (A : Type) where
  /-- a new scope with a cell of its own -/
  | fresh (a : A)
  /-- a new scope with a cell of its own, filled from the cell of scope `t` -/
  | dup (t : Nat) (f : A → A)
  /-- a new scope with the cell of scope `t` -/
  | share (t : Nat)
  /-- scope `t` moves to a cell of its own, filled from its previous cell -/
  | fork (t : Nat) (f : A → A)
  /-- the cell of scope `t` changes -/
  | write (t : Nat) (f : A → A)

section
variable {A : Type}

/-- The number of scopes after a history (newest first). -/
def count : List (COp A) → Nat
  | [] => 0
  | .fresh _ :: h => count h + 1
  | .dup t _ :: h => if t < count h then count h + 1 else count h
  | .share t :: h => if t < count h then count h + 1 else count h
  | .fork _ _ :: h => count h
  | .write _ _ :: h => count h

/-- The cell of a scope, named by the time at which it came to be. -/
def cell : List (COp A) → Nat → Option Nat
  | [], _ => none
  | .fresh _ :: h, s => if s = count h then some h.length else cell h s
  | .dup t _ :: h, s => if s = count h ∧ t < count h then some h.length else cell h s
  | .share t :: h, s => if s = count h then cell h t else cell h s
  | .fork t _ :: h, s => if s = t ∧ t < count h then some h.length else cell h s
  | .write _ _ :: h, s => cell h s

/-- What the cell of a scope holds. -/
def held : List (COp A) → Nat → Option A
  | [], _ => none
  | .fresh a :: h, s => if s = count h then some a else held h s
  | .dup t f :: h, s => if s = count h then (held h t).map f else held h s
  | .share t :: h, s => if s = count h then held h t else held h s
  | .fork t f :: h, s => if s = t then (held h t).map f else held h s
  | .write t f :: h, s => if cell h s = cell h t then (held h s).map f else held h s

/-- Cells as objects: references and contents. -/
structure Store (A : Type) where
  ptr : List Nat
  cells : List A

def Store.get (σ : Store A) (s : Nat) : Option A := (σ.ptr[s]?).bind fun p => σ.cells[p]?

def Store.step (σ : Store A) : COp A → Store A
  | .fresh a => ⟨σ.ptr ++ [σ.cells.length], σ.cells ++ [a]⟩
  | .dup t f => match σ.get t with
    | none => σ
    | some a => ⟨σ.ptr ++ [σ.cells.length], σ.cells ++ [f a]⟩
  | .share t => match σ.ptr[t]? with
    | none => σ
    | some p => ⟨σ.ptr ++ [p], σ.cells⟩
  | .fork t f => match σ.get t with
    | none => σ
    | some a => ⟨σ.ptr.set t σ.cells.length, σ.cells ++ [f a]⟩
  | .write t f => match σ.ptr[t]? with
    | none => σ
    | some p => ⟨σ.ptr, σ.cells.modify p f⟩

def Store.run : List (COp A) → Store A
  | [] => ⟨[], []⟩
  | op :: h => (Store.run h).step op

structure StoreInv (h : List (COp A)) (σ : Store A) : Prop where
  len : σ.ptr.length = count h
  ok : ∀ s p : Nat, σ.ptr[s]? = some p → p < σ.cells.length
  same : ∀ s t : Nat, s < count h → t < count h → (σ.ptr[s]? = σ.ptr[t]? ↔ cell h s = cell h t)
  out : ∀ s : Nat, cell h s = none ↔ count h ≤ s
  old : ∀ s n : Nat, cell h s = some n → n < h.length
  val : ∀ s : Nat, σ.get s = held h s

theorem get_none {h : List (COp A)} {σ : Store A} (I : StoreInv h σ) {s : Nat} :
    σ.get s = none ↔ count h ≤ s := by
  unfold Store.get
  constructor
  · intro e
    rcases Nat.lt_or_ge s (count h) with hs | hs
    · have hs' : s < σ.ptr.length := by rw [I.len]; exact hs
      rw [List.getElem?_eq_getElem hs'] at e
      have := I.ok s _ (List.getElem?_eq_getElem hs')
      rw [Option.bind_some, List.getElem?_eq_getElem this] at e; cases e
    · exact hs
  · intro hs
    have : σ.ptr[s]? = none := List.getElem?_eq_none (by rw [I.len]; exact hs)
    rw [this]; rfl

theorem ptr_some {h : List (COp A)} {σ : Store A} (I : StoreInv h σ) {s : Nat} (hs : s < count h) :
    ∃ p, σ.ptr[s]? = some p ∧ p < σ.cells.length := by
  have hs' : s < σ.ptr.length := by rw [I.len]; exact hs
  exact ⟨_, List.getElem?_eq_getElem hs', I.ok s _ (List.getElem?_eq_getElem hs')⟩

theorem ptr_none {h : List (COp A)} {σ : Store A} (I : StoreInv h σ) {s : Nat} (hs : count h ≤ s) :
    σ.ptr[s]? = none := List.getElem?_eq_none (by rw [I.len]; exact hs)

theorem cell_some {h : List (COp A)} {σ : Store A} (I : StoreInv h σ) {s : Nat} (hs : s < count h) :
    ∃ n, cell h s = some n ∧ n < h.length := by
  cases e : cell h s with
  | none => have := (I.out s).1 e; omega
  | some n => exact ⟨n, rfl, I.old s n e⟩

/-- A new scope with a new cell. -/
theorem inv_new {h : List (COp A)} {σ : Store A} (I : StoreInv h σ) (op : COp A) (a : A)
    (hc : count (op :: h) = count h + 1)
    (hcell : ∀ s, cell (op :: h) s = if s = count h then some h.length else cell h s)
    (hheld : ∀ s, held (op :: h) s = if s = count h then some a else held h s) :
    StoreInv (op :: h) ⟨σ.ptr ++ [σ.cells.length], σ.cells ++ [a]⟩ := by
  have hp : ∀ s : Nat, (σ.ptr ++ [σ.cells.length])[s]? =
      if s = count h then some σ.cells.length else σ.ptr[s]? := by
    intro s
    by_cases e : s = count h
    · rw [if_pos e, e, ← I.len]; simp
    · rw [if_neg e]
      rcases Nat.lt_or_ge s (count h) with hs | hs
      · rw [List.getElem?_append_left (by rw [I.len]; exact hs)]
      · rw [ptr_none I hs, List.getElem?_eq_none (by simp [I.len]; omega)]
  refine ⟨by simp [I.len, hc], ?_, ?_, ?_, ?_, ?_⟩
  · intro s p e
    rw [hp] at e
    simp only [List.length_append, List.length_singleton]
    by_cases e1 : s = count h
    · rw [if_pos e1] at e; cases e; omega
    · rw [if_neg e1] at e; have := I.ok s p e; omega
  · intro s t hs ht
    rw [hc] at hs ht
    simp only [hp, hcell]
    by_cases e1 : s = count h <;> by_cases e2 : t = count h
    · simp [e1, e2]
    · have ht' : t < count h := by omega
      obtain ⟨p, h1, h2⟩ := ptr_some I ht'
      obtain ⟨n, h3, h4⟩ := cell_some I ht'
      simp only [if_pos e1, if_neg e2, h1, h3, Option.some.injEq]; omega
    · have hs' : s < count h := by omega
      obtain ⟨p, h1, h2⟩ := ptr_some I hs'
      obtain ⟨n, h3, h4⟩ := cell_some I hs'
      simp only [if_pos e2, if_neg e1, h1, h3, Option.some.injEq]; omega
    · simp only [if_neg e1, if_neg e2]; exact I.same s t (by omega) (by omega)
  · intro s
    rw [hcell, hc]
    by_cases e1 : s = count h
    · simp [e1]
    · rw [if_neg e1, I.out]; omega
  · intro s n e
    rw [hcell] at e
    simp only [List.length_cons]
    by_cases e1 : s = count h
    · rw [if_pos e1] at e; cases e; omega
    · rw [if_neg e1] at e; have := I.old s n e; omega
  · intro s
    rw [hheld]
    unfold Store.get
    simp only [hp]
    by_cases e1 : s = count h
    · simp [e1]
    · rw [if_neg e1, if_neg e1, ← I.val s]
      unfold Store.get
      cases e2 : σ.ptr[s]? with
      | none => rfl
      | some p =>
        simp only [Option.bind_some]
        rw [List.getElem?_append_left (I.ok s p e2)]

theorem StoreInv.keep {h : List (COp A)} {σ : Store A} (I : StoreInv h σ) (op : COp A)
    (hc : count (op :: h) = count h)
    (hcell : ∀ s, cell (op :: h) s = cell h s) (hheld : ∀ s, held (op :: h) s = held h s) :
    StoreInv (op :: h) σ :=
  ⟨by rw [hc]; exact I.len, I.ok, by intro s t; rw [hc, hcell, hcell]; exact I.same s t,
   by intro s; rw [hc, hcell]; exact I.out s,
   by intro s n e; rw [hcell] at e; have := I.old s n e; simp; omega,
   by intro s; rw [hheld]; exact I.val s⟩

theorem storeInv (h : List (COp A)) : StoreInv h (Store.run h) := by
  induction h with
  | nil => exact ⟨rfl, by simp [Store.run], by simp [count], by simp [cell, count], by simp [cell],
      by intro s; rfl⟩
  | cons op h I =>
    rw [show Store.run (op :: h) = (Store.run h).step op from rfl]
    generalize Store.run h = σ at I ⊢
    cases op with
    | fresh a => exact inv_new I _ a rfl (fun _ => rfl) (fun _ => rfl)
    | dup t f =>
      rcases Nat.lt_or_ge t (count h) with ht | ht
      · cases e : σ.get t with
        | none => have := (get_none I).1 e; omega
        | some a =>
          simp only [Store.step, e]
          refine inv_new I _ (f a) (by simp [count, ht]) (fun s => by simp [cell, ht]) (fun s => ?_)
          simp only [held, ← I.val t, e, Option.map_some]
      · have e := (get_none I).2 ht
        simp only [Store.step, e]
        refine I.keep _ (by simp [count]; omega) (fun s => by simp only [cell]; rw [if_neg (by omega)])
          (fun s => ?_)
        simp only [held, ← I.val t, e, Option.map_none]
        by_cases e1 : s = count h
        · rw [if_pos e1, ← I.val s, (get_none I).2 (by omega)]
        · rw [if_neg e1]
    | share t =>
      rcases Nat.lt_or_ge t (count h) with ht | ht
      · obtain ⟨p, h1, h2⟩ := ptr_some I ht
        simp only [Store.step, h1]
        have hc : count (COp.share t :: h) = count h + 1 := by simp [count, ht]
        have hp : ∀ s : Nat, (σ.ptr ++ [p])[s]? = if s = count h then σ.ptr[t]? else σ.ptr[s]? := by
          intro s
          by_cases e : s = count h
          · rw [if_pos e, e, ← I.len, h1]; simp
          · rw [if_neg e]
            rcases Nat.lt_or_ge s (count h) with hs | hs
            · rw [List.getElem?_append_left (by rw [I.len]; exact hs)]
            · rw [ptr_none I hs, List.getElem?_eq_none (by simp [I.len]; omega)]
        refine ⟨by simp [I.len, hc], ?_, ?_, ?_, ?_, ?_⟩
        · intro s q e
          rw [hp] at e
          by_cases e1 : s = count h
          · rw [if_pos e1] at e; exact I.ok t q e
          · rw [if_neg e1] at e; exact I.ok s q e
        · intro s u hs hu
          rw [hc] at hs hu
          simp only [hp, cell]
          by_cases e1 : s = count h <;> by_cases e2 : u = count h
          · simp [e1, e2]
          · simp only [if_pos e1, if_neg e2]; exact I.same t u ht (by omega)
          · simp only [if_pos e2, if_neg e1]; exact I.same s t (by omega) ht
          · simp only [if_neg e1, if_neg e2]; exact I.same s u (by omega) (by omega)
        · intro s
          rw [hc]; simp only [cell]
          by_cases e1 : s = count h
          · rw [if_pos e1, I.out]; omega
          · rw [if_neg e1, I.out]; omega
        · intro s n e
          simp only [cell] at e
          simp only [List.length_cons]
          by_cases e1 : s = count h
          · rw [if_pos e1] at e; have := I.old t n e; omega
          · rw [if_neg e1] at e; have := I.old s n e; omega
        · intro s
          simp only [held]
          unfold Store.get
          simp only [hp]
          by_cases e1 : s = count h
          · rw [if_pos e1, if_pos e1, ← I.val t]; rfl
          · rw [if_neg e1, if_neg e1, ← I.val s]; rfl
      · simp only [Store.step, ptr_none I ht]
        have ho := (I.out t).2 ht
        refine I.keep _ (by simp [count]; omega) (fun s => ?_) (fun s => ?_)
        · simp only [cell]
          by_cases e1 : s = count h
          · rw [if_pos e1, ho, (I.out s).2 (by omega)]
          · rw [if_neg e1]
        · simp only [held]
          by_cases e1 : s = count h
          · rw [if_pos e1, ← I.val, ← I.val, (get_none I).2 ht, (get_none I).2 (by omega)]
          · rw [if_neg e1]
    | fork t f =>
      rcases Nat.lt_or_ge t (count h) with ht | ht
      · cases e : σ.get t with
        | none => have := (get_none I).1 e; omega
        | some a =>
          simp only [Store.step, e]
          have hc : count (COp.fork t f :: h) = count h := rfl
          have hp : ∀ s : Nat, (σ.ptr.set t σ.cells.length)[s]? =
              if s = t then some σ.cells.length else σ.ptr[s]? := by
            intro s
            rw [List.getElem?_set]
            by_cases e1 : t = s
            · rw [if_pos e1, if_pos e1.symm, if_pos (by rw [I.len]; exact ht)]
            · rw [if_neg e1, if_neg (fun e2 : s = t => e1 e2.symm)]
          have hcell : ∀ s, cell (COp.fork t f :: h) s = if s = t then some h.length else cell h s := by
            intro s; simp [cell, ht]
          refine ⟨by simp [I.len, hc], ?_, ?_, ?_, ?_, ?_⟩
          · intro s q e1
            rw [hp] at e1
            simp only [List.length_append, List.length_singleton]
            by_cases e2 : s = t
            · rw [if_pos e2] at e1; cases e1; omega
            · rw [if_neg e2] at e1; have := I.ok s q e1; omega
          · intro s u hs hu
            rw [hc] at hs hu
            simp only [hp, hcell]
            by_cases e1 : s = t <;> by_cases e2 : u = t
            · simp [e1, e2]
            · obtain ⟨p, h1, h2⟩ := ptr_some I hu
              obtain ⟨n, h3, h4⟩ := cell_some I hu
              simp only [if_pos e1, if_neg e2, h1, h3, Option.some.injEq]; omega
            · obtain ⟨p, h1, h2⟩ := ptr_some I hs
              obtain ⟨n, h3, h4⟩ := cell_some I hs
              simp only [if_pos e2, if_neg e1, h1, h3, Option.some.injEq]; omega
            · simp only [if_neg e1, if_neg e2]; exact I.same s u hs hu
          · intro s
            rw [hcell, hc]
            by_cases e1 : s = t
            · simp [e1]; exact ht
            · rw [if_neg e1, I.out]
          · intro s n e1
            rw [hcell] at e1
            simp only [List.length_cons]
            by_cases e2 : s = t
            · rw [if_pos e2] at e1; cases e1; omega
            · rw [if_neg e2] at e1; have := I.old s n e1; omega
          · intro s
            simp only [held]
            unfold Store.get
            simp only [hp]
            by_cases e1 : s = t
            · rw [if_pos e1, if_pos e1, ← I.val t, e]; simp
            · rw [if_neg e1, if_neg e1, ← I.val s]
              unfold Store.get
              cases e2 : σ.ptr[s]? with
              | none => rfl
              | some p =>
                simp only [Option.bind_some]
                rw [List.getElem?_append_left (I.ok s p e2)]
      · have e := (get_none I).2 ht
        simp only [Store.step, e]
        refine I.keep _ rfl (fun s => by simp only [cell]; rw [if_neg (by omega)]) (fun s => ?_)
        simp only [held]
        by_cases e1 : s = t
        · rw [if_pos e1, ← I.val t, e, ← I.val s, e1, e]; rfl
        · rw [if_neg e1]
    | write t f =>
      rcases Nat.lt_or_ge t (count h) with ht | ht
      · obtain ⟨p, h1, h2⟩ := ptr_some I ht
        simp only [Store.step, h1]
        refine ⟨I.len, ?_, I.same, I.out, ?_, ?_⟩
        · intro s q e; simp only [List.length_modify]; exact I.ok s q e
        · intro s n e; have := I.old s n e; simp only [List.length_cons]; omega
        · intro s
          simp only [held]
          rcases Nat.lt_or_ge s (count h) with hs | hs
          · obtain ⟨q, h3, h4⟩ := ptr_some I hs
            have hsm := I.same s t hs ht
            rw [h1, h3] at hsm
            have hv := I.val s
            unfold Store.get at hv ⊢
            rw [h3, Option.bind_some] at hv ⊢
            rw [List.getElem?_modify, hv]
            by_cases e : p = q
            · have ec := hsm.1 (by rw [e])
              rw [if_pos ec]
              simp only [e, if_true]
              cases held h s <;> rfl
            · have ec : ¬ cell h s = cell h t := fun x => e (Option.some.inj (hsm.2 x)).symm
              rw [if_neg ec]
              simp only [e, if_false]
              cases held h s <;> rfl
          · have hn : held h s = none := by rw [← I.val s]; exact (get_none I).2 hs
            rw [hn]
            unfold Store.get
            rw [ptr_none I hs]
            simp
      · simp only [Store.step, ptr_none I ht]
        refine I.keep _ rfl (fun s => rfl) (fun s => ?_)
        simp only [held]
        by_cases e : cell h s = cell h t
        · rw [if_pos e]
          have : cell h s = none := by rw [e]; exact (I.out t).2 ht
          have hs := (I.out s).1 this
          rw [← I.val s, (get_none I).2 hs]; rfl
        · rw [if_neg e]

/-- The objects hold what the history says. -/
theorem store_get (h : List (COp A)) (s : Nat) : (Store.run h).get s = held h s := (storeInv h).val s

/-- Two kinds of cells that go through corresponding changes. -/
inductive Like {A B : Type} (g : A → B) : COp A → COp B → Prop where
  | fresh (a : A) : Like g (.fresh a) (.fresh (g a))
  | dup (t : Nat) (f : A → A) (f' : B → B) (e : ∀ a, g (f a) = f' (g a)) : Like g (.dup t f) (.dup t f')
  | share (t : Nat) : Like g (.share t) (.share t)
  | fork (t : Nat) (f : A → A) (f' : B → B) (e : ∀ a, g (f a) = f' (g a)) : Like g (.fork t f) (.fork t f')
  | write (t : Nat) (f : A → A) (f' : B → B) (e : ∀ a, g (f a) = f' (g a)) : Like g (.write t f) (.write t f')
  | idle (t u : Nat) (f : A → A) (e : ∀ a, g (f a) = g a) : Like g (.write t f) (.write u id)

theorem held_like {B O : Type} (g : A → B) (ka : O → COp A) (kb : O → COp B)
    (hk : ∀ o, Like g (ka o) (kb o)) (h : List O) :
    count (h.map kb) = count (h.map ka) ∧ (∀ s, cell (h.map kb) s = cell (h.map ka) s) ∧
    ∀ s, held (h.map kb) s = (held (h.map ka) s).map g := by
  induction h with
  | nil => exact ⟨rfl, fun _ => rfl, fun _ => rfl⟩
  | cons o h ih =>
    obtain ⟨h1, h2, h3⟩ := ih
    simp only [List.map_cons]
    have hl := hk o
    generalize ka o = x at hl ⊢
    generalize kb o = y at hl ⊢
    cases hl with
    | fresh a =>
      refine ⟨by simp [count, h1], fun s => by simp [cell, h1, h2], fun s => ?_⟩
      simp only [held, h1]; split <;> simp [h3]
    | dup t f f' e =>
      refine ⟨by simp [count, h1], fun s => by simp [cell, h1, h2], fun s => ?_⟩
      simp only [held, h1]
      split
      · rw [h3]; cases held (h.map ka) t <;> simp [e]
      · rw [h3]
    | share t =>
      refine ⟨by simp [count, h1], fun s => by simp [cell, h1, h2], fun s => ?_⟩
      simp only [held, h1]; split <;> simp [h3]
    | fork t f f' e =>
      refine ⟨by simp [count, h1], fun s => by simp [cell, h1, h2], fun s => ?_⟩
      simp only [held, h1]
      split
      · rw [h3]; cases held (h.map ka) t <;> simp [e]
      · rw [h3]
    | write t f f' e =>
      refine ⟨by simp [count, h1], fun s => by simp [cell, h1, h2], fun s => ?_⟩
      simp only [held, h2]
      split
      · rw [h3]; cases held (h.map ka) s <;> simp [e]
      · rw [h3]
    | idle t u f e =>
      refine ⟨by simp [count, h1], fun s => by simp [cell, h1, h2], fun s => ?_⟩
      simp only [held, h2]
      have h4 : Option.map id (held (h.map kb) s) = held (h.map kb) s := by
        cases held (h.map kb) s <;> rfl
      rw [h4, h3]
      split <;> split <;> first | rfl | (cases held (h.map ka) s <;> simp [e])

end

/-! ## What the calls mean -/

section
variable {V : Type}

/-- A call that does not concern the things in question. -/
def noChange {A : Type} : COp A := .write 0 id

/-- Registered functions, the newest first: `NewScope` copies them, `Copy` and
`ClearContext` share them. -/
def fnOp (b : Builtin) : Op V → COp (List (Str × Reg))
  | .newRoot => .fresh b.fns.reverse
  | .newScope t => .dup t id
  | .copy t => .share t
  | .appendFunctions t l => .write t (fun log => l.reverse ++ log)
  | _ => noChange

/-- Registered plugins. -/
def pluginOp (b : Builtin) : Op V → COp (List (Str × Reg))
  | .newRoot => .fresh b.plugins.reverse
  | .newScope t => .dup t id
  | .copy t => .share t
  | .appendPlugins t l => .write t (fun log => l.reverse ++ log)
  | _ => noChange

/-- The implementations of one call of `AddProtocolImpl` that are registered with protocol
`p`: those before the first unsupported one whose first protocol is `p`. -/
def registered (p : Proto) (l : List Impl) : List Impl :=
  (l.takeWhile (fun i => i.proto.isSome)).filter (fun i => decide (i.proto = some p))

/-- Operator implementations, the newest first: `NewScope` and `ClearContext` copy them,
`Copy` shares them. -/
def implOp (b : Builtin) (p : Proto) : Op V → COp (List Impl)
  | .newRoot => .fresh (registered p b.impls).reverse
  | .newScope t => .dup t id
  | .copy t => .share t
  | .clearContext t => .fork t id
  | .addImpls t l => .write t (fun log => (registered p l).reverse ++ log)
  | _ => noChange

/-- Context values, the newest first: `NewScope` and `ClearContext` start without any,
`Copy` shares them. -/
def ctxOp : Op V → COp (List (Str × V))
  | .newRoot => .fresh []
  | .newScope t => .dup t (fun _ => [])
  | .copy t => .share t
  | .clearContext t => .fork t (fun _ => [])
  | .setContext t k v => .write t (fun log => (k, v) :: log)
  | _ => noChange

/-- The settings of a scope. -/
structure Settings where
  sorter : Nat
  grouper : Nat
  materializer : Nat
  logger : Option Nat
  tracer : Option Nat
  deriving DecidableEq, Repr

/-- Settings: `NewScope` and `ClearContext` copy them, `Copy` shares them. -/
def settingOp : Op V → COp Settings
  | .newRoot => .fresh ⟨0, 0, 0, none, none⟩
  | .newScope t => .dup t id
  | .copy t => .share t
  | .clearContext t => .fork t id
  | .setSorter t x => .write t (fun c => { c with sorter := x })
  | .setGrouper t x => .write t (fun c => { c with grouper := x })
  | .setMaterializer t x => .write t (fun c => { c with materializer := x })
  | .setLogger t x => .write t (fun c => { c with logger := x })
  | .setTracer t x => .write t (fun c => { c with tracer := x })
  | _ => noChange

/-- The explainer: as the settings, but `ClearContext` drops it. -/
def explainerOp : Op V → COp (Option Nat)
  | .newRoot => .fresh none
  | .newScope t => .dup t id
  | .copy t => .share t
  | .clearContext t => .fork t (fun _ => none)
  | .setExplainer t x => .write t (fun _ => x)
  | _ => noChange

/-- Whether explaining is enabled: `Copy` copies it, `NewScope` starts without. -/
def explainOp : Op V → COp Bool
  | .newRoot => .fresh false
  | .newScope t => .dup t (fun _ => false)
  | .copy t => .dup t id
  | .enableExplain t => .write t (fun _ => true)
  | _ => noChange

/-- The most recent entry for a name. -/
def newest {A : Type} (k : Str) (log : List (Str × A)) : Option A := (log.find? (fun p => decide (p.1 = k))).map (·.2)

/-- The settings as the scope has them. -/
def Heap.settings (h : Heap V) (s : Nat) : Option Settings :=
  (h.box s).map fun x => ⟨x.sorter, x.grouper, x.materializer, x.logger, x.tracer⟩

/-! ## The objects -/

/-- References lead to objects. -/
structure WF (H : Heap V) : Prop where
  box : ∀ (s : Nat) (sc : Sc), H.scopes[s]? = some sc → ∃ x, H.boxes[sc.box]? = some x
  fns : ∀ x ∈ H.boxes, ∃ m, H.fmaps[x.fns]? = some m
  plugins : ∀ x ∈ H.boxes, ∃ m, H.pmaps[x.plugins]? = some m

theorem some_append {A : Type} {l : List A} {i : Nat} {x : A} (r : List A) (h : l[i]? = some x) :
    (l ++ r)[i]? = some x := by
  rw [List.getElem?_append_left (List.getElem?_eq_some_iff.1 h).1]; exact h

theorem some_modify {A : Type} {l : List A} {i j : Nat} {x : A} (f : A → A) (h : l[i]? = some x) :
    ∃ y, (l.modify j f)[i]? = some y := by
  rw [List.getElem?_modify, h]; exact ⟨_, rfl⟩

theorem modify_sel {A B : Type} (g : A → B) (l : List A) (i j : Nat) {f : A → A} (hf : ∀ x, g (f x) = g x) :
    ((l.modify i f)[j]?).map g = (l[j]?).map g := by
  rw [List.getElem?_modify]
  cases l[j]? with
  | none => rfl
  | some x =>
    by_cases e : i = j
    · simp [e, hf]
    · simp [e]

theorem mem_modify {A : Type} {l : List A} {i : Nat} {f : A → A} {x : A} (h : x ∈ l.modify i f) :
    x ∈ l ∨ ∃ y ∈ l, x = f y := by
  obtain ⟨j, hj⟩ := List.getElem?_of_mem h
  rw [List.getElem?_modify] at hj
  cases e : l[j]? with
  | none => rw [e] at hj; cases hj
  | some y =>
    rw [e] at hj
    by_cases e1 : i = j
    · right; refine ⟨y, List.mem_of_getElem? e, ?_⟩; simp [e1] at hj; exact hj.symm
    · left; simp [e1] at hj; rw [← hj]; exact List.mem_of_getElem? e

theorem map_explain {B : Type} (g : Sc → B) (l : List Sc) (i : Nat)
    (hg : ∀ sc : Sc, g { sc with explain := true } = g sc) :
    (l.modify i (fun sc => { sc with explain := true })).map g = l.map g := by
  apply List.ext_getElem?
  intro j
  rw [List.getElem?_map, List.getElem?_map]
  exact modify_sel g l i j hg

theorem wf_onBox {H : Heap V} (w : WF H) (s : Nat) (f : Box V → Box V)
    (h1 : ∀ x, (f x).fns = x.fns) (h2 : ∀ x, (f x).plugins = x.plugins) : WF (H.onBox s f) := by
  unfold Heap.onBox
  split
  · exact w
  · refine ⟨fun s' sc' e => ?_, fun x hx => ?_, fun x hx => ?_⟩
    · obtain ⟨x, hx⟩ := w.box s' sc' e; exact some_modify _ hx
    · rcases mem_modify hx with hx | ⟨y, hy, rfl⟩
      · exact w.fns x hx
      · rw [h1]; exact w.fns y hy
    · rcases mem_modify hx with hx | ⟨y, hy, rfl⟩
      · exact w.plugins x hx
      · rw [h2]; exact w.plugins y hy

theorem wf_step (b : Builtin) {H : Heap V} (w : WF H) (op : Op V) : WF (H.step b op) := by
  have new : ∀ (y : Box V) (m m' : OD Reg), y.fns = H.fmaps.length → y.plugins = H.pmaps.length →
      WF { scopes := H.scopes ++ [⟨H.boxes.length, false⟩], boxes := H.boxes ++ [y],
           fmaps := H.fmaps ++ [m], pmaps := H.pmaps ++ [m'] } := by
    intro y m m' hf hp
    refine ⟨fun s sc e => ?_, fun x hx => ?_, fun x hx => ?_⟩
    · rw [List.getElem?_append] at e
      split at e
      · obtain ⟨x, hx⟩ := w.box s sc e; exact ⟨x, some_append _ hx⟩
      · rw [List.getElem?_singleton] at e
        split at e
        · cases e; exact ⟨y, by simp⟩
        · cases e
    · rcases List.mem_append.1 hx with hx | hx
      · obtain ⟨m, hm⟩ := w.fns x hx; exact ⟨m, some_append _ hm⟩
      · rw [List.mem_singleton.1 hx, hf]; exact ⟨m, by simp⟩
    · rcases List.mem_append.1 hx with hx | hx
      · obtain ⟨m, hm⟩ := w.plugins x hx; exact ⟨m, some_append _ hm⟩
      · rw [List.mem_singleton.1 hx, hp]; exact ⟨m', by simp⟩
  cases op with
  | newRoot => exact new _ _ _ rfl rfl
  | newScope t =>
    simp only [Heap.step]
    split
    · exact w
    · exact new _ _ _ rfl rfl
  | copy t =>
    simp only [Heap.step]
    split
    · exact w
    · rename_i sc e
      refine ⟨fun s' sc' e' => ?_, w.fns, w.plugins⟩
      rw [List.getElem?_append] at e'
      split at e'
      · exact w.box s' sc' e'
      · rw [List.getElem?_singleton] at e'
        split at e'
        · cases e'; exact w.box t _ e
        · cases e'
  | clearContext t =>
    simp only [Heap.step]
    split
    · rename_i sc x e1 e2
      have hx : H.boxes[sc.box]? = some x := by simpa [Heap.box, e1] using e2
      refine ⟨fun s' sc' e' => ?_, fun y hy => ?_, fun y hy => ?_⟩
      · rw [List.getElem?_set] at e'
        split at e'
        · split at e'
          · cases e'; exact ⟨{ x with ctx := [], explainer := none }, by simp⟩
          · cases e'
        · obtain ⟨z, hz⟩ := w.box s' sc' e'; exact ⟨z, some_append _ hz⟩
      · rcases List.mem_append.1 hy with hy | hy
        · exact w.fns y hy
        · rw [List.mem_singleton.1 hy]; exact w.fns x (List.mem_of_getElem? hx)
      · rcases List.mem_append.1 hy with hy | hy
        · exact w.plugins y hy
        · rw [List.mem_singleton.1 hy]; exact w.plugins x (List.mem_of_getElem? hx)
    · exact w
  | appendFunctions t l =>
    simp only [Heap.step]
    split
    · exact w
    · refine ⟨w.box, fun x hx => ?_, w.plugins⟩
      obtain ⟨m, hm⟩ := w.fns x hx; exact some_modify _ hm
  | appendPlugins t l =>
    simp only [Heap.step]
    split
    · exact w
    · refine ⟨w.box, w.fns, fun x hx => ?_⟩
      obtain ⟨m, hm⟩ := w.plugins x hx; exact some_modify _ hm
  | enableExplain t =>
    refine ⟨fun s' sc' e' => ?_, w.fns, w.plugins⟩
    simp only [Heap.step] at e'
    rw [List.getElem?_modify] at e'
    cases e : H.scopes[s']? with
    | none => rw [e] at e'; cases e'
    | some sc =>
      rw [e] at e'
      have : sc'.box = sc.box := by
        by_cases e1 : t = s'
        · simp [e1] at e'; rw [← e']
        · simp [e1] at e'; rw [← e']
      simp only [Heap.step]; rw [this]; exact w.box s' sc e
  | _ => exact wf_onBox w _ _ (fun _ => rfl) (fun _ => rfl)

theorem wf_run (b : Builtin) (h : List (Op V)) : WF (run b h) := by
  induction h with
  | nil => exact ⟨by simp [run], by simp [run], by simp [run]⟩
  | cons op h ih => exact wf_step b ih op

theorem step_noChange {A : Type} (σ : Store A) : σ.step noChange = σ := by
  have hm : ∀ p, σ.cells.modify p id = σ.cells := by
    intro p
    apply List.ext_getElem?
    intro j
    rw [List.getElem?_modify]
    cases σ.cells[j]? <;> simp
  cases e : σ.ptr[0]? with
  | none => simp only [noChange, Store.step, e]
  | some p => simp only [noChange, Store.step, e, hm]

/-- The map after a log of registrations. -/
def replay (log : List (Str × Reg)) : OD Reg := setAll [] log.reverse

theorem replay_reverse (l : List (Str × Reg)) : replay l.reverse = setAll [] l := by
  simp [replay]

theorem replay_append (l log : List (Str × Reg)) : replay (l.reverse ++ log) = setAll (replay log) l := by
  simp [replay, setAll, List.foldl_append]

/-! ### Functions -/

/-- The changes to the maps of functions. -/
def mfnOp (b : Builtin) : Op V → COp (OD Reg)
  | .newRoot => .fresh (setAll [] b.fns)
  | .newScope t => .dup t id
  | .copy t => .share t
  | .appendFunctions t l => .write t (fun m => setAll m l)
  | _ => noChange

def projF (H : Heap V) : Store (OD Reg) :=
  ⟨H.scopes.map (fun sc => ((H.boxes[sc.box]?).map (fun x => x.fns)).getD 0), H.fmaps⟩

theorem projF_ptr (H : Heap V) (s : Nat) (sc : Sc) (x : Box V) (h1 : H.scopes[s]? = some sc)
    (h2 : H.boxes[sc.box]? = some x) : (projF H).ptr[s]? = some x.fns := by
  simp [projF, h1, h2]

theorem projF_get {H : Heap V} (w : WF H) (s : Nat) : (projF H).get s = H.fmap s := by
  unfold Store.get Heap.fmap Heap.box
  cases e : H.scopes[s]? with
  | none => simp [projF, e]
  | some sc =>
    obtain ⟨x, hx⟩ := w.box s sc e
    simp [projF, e, hx]

theorem projF_onBox (H : Heap V) (s : Nat) (f : Box V → Box V) (hf : ∀ x, (f x).fns = x.fns) :
    projF (H.onBox s f) = projF H := by
  unfold Heap.onBox
  split
  · rfl
  · rename_i sc e
    simp only [projF, Store.mk.injEq, and_true]
    apply List.map_congr_left
    intro sc' _
    rw [modify_sel (fun x : Box V => x.fns) _ _ _ hf]

theorem projF_step (b : Builtin) {H : Heap V} (w : WF H) (op : Op V) :
    projF (H.step b op) = (projF H).step (mfnOp b op) := by
  have hold : ∀ (sc : Sc) (y : Box V), sc ∈ H.scopes →
      (((H.boxes ++ [y])[sc.box]?).map (fun x => x.fns)).getD 0 =
        ((H.boxes[sc.box]?).map (fun x => x.fns)).getD 0 := by
    intro sc y hsc
    obtain ⟨s, hs⟩ := List.getElem?_of_mem hsc
    obtain ⟨x, hx⟩ := w.box s sc hs
    rw [List.getElem?_append_left (List.getElem?_eq_some_iff.1 hx).1]
  cases op with
  | newRoot =>
    simp only [Heap.step, mfnOp, Store.step, projF, Store.mk.injEq, and_true, List.map_append,
      List.map_singleton, List.map_nil, List.map_cons]
    rw [List.map_congr_left (fun sc hsc => hold sc _ hsc)]
    simp
  | newScope t =>
    simp only [mfnOp, Store.step, projF_get w]
    cases e : H.scopes[t]? with
    | none => simp [Heap.step, Heap.box, Heap.fmap, e]
    | some sc =>
      obtain ⟨x, hx⟩ := w.box t sc e
      obtain ⟨m, hm⟩ := w.fns x (List.mem_of_getElem? hx)
      simp only [Heap.step, Heap.box, Heap.fmap, e, hx, Option.bind_some, hm, Option.getD_some, id]
      simp only [projF, Store.mk.injEq, and_true, List.map_append, List.map_singleton, List.map_nil, List.map_cons]
      rw [List.map_congr_left (fun sc hsc => hold sc _ hsc)]
      simp
  | copy t =>
    simp only [mfnOp, Store.step, Heap.step]
    cases e : H.scopes[t]? with
    | none => simp [projF, e]
    | some sc => simp [projF, e]
  | clearContext t =>
    rw [show mfnOp b (.clearContext t : Op V) = noChange from rfl, step_noChange]
    simp only [Heap.step, Heap.box]
    cases e : H.scopes[t]? with
    | none => rfl
    | some sc =>
      obtain ⟨x, hx⟩ := w.box t sc e
      simp only [hx]
      simp only [projF, Store.mk.injEq, and_true]
      apply List.ext_getElem?
      intro j
      rw [List.getElem?_map, List.getElem?_map, List.getElem?_set]
      by_cases ej : t = j
      · subst ej
        rw [if_pos rfl, if_pos (List.getElem?_eq_some_iff.1 e).1, e]
        simp [hx]
      · rw [if_neg ej]
        cases ej : H.scopes[j]? with
        | none => rfl
        | some sc' =>
          simp only [Option.map_some, Option.some.injEq]
          exact hold sc' _ (List.mem_of_getElem? ej)
  | appendFunctions t l =>
    simp only [mfnOp, Store.step, Heap.step, Heap.box]
    cases e : H.scopes[t]? with
    | none => simp [projF, e]
    | some sc =>
      obtain ⟨x, hx⟩ := w.box t sc e
      simp only [hx, projF_ptr H t sc x e hx]
      rfl
  | appendPlugins t l =>
    rw [show mfnOp b (.appendPlugins t l : Op V) = noChange from rfl, step_noChange]
    simp only [Heap.step]
    split <;> rfl
  | enableExplain t =>
    rw [show mfnOp b (.enableExplain t : Op V) = noChange from rfl, step_noChange]
    simp only [Heap.step, projF, Store.mk.injEq, and_true]
    exact map_explain _ _ _ (fun _ => rfl)
  | setContext t k v =>
    rw [show mfnOp b (.setContext t k v : Op V) = noChange from rfl, step_noChange]
    exact projF_onBox _ _ _ (fun _ => rfl)
  | addImpls t l =>
    rw [show mfnOp b (.addImpls t l : Op V) = noChange from rfl, step_noChange]
    exact projF_onBox _ _ _ (fun _ => rfl)
  | setSorter t v =>
    rw [show mfnOp b (.setSorter t v : Op V) = noChange from rfl, step_noChange]
    exact projF_onBox _ _ _ (fun _ => rfl)
  | setGrouper t v =>
    rw [show mfnOp b (.setGrouper t v : Op V) = noChange from rfl, step_noChange]
    exact projF_onBox _ _ _ (fun _ => rfl)
  | setMaterializer t v =>
    rw [show mfnOp b (.setMaterializer t v : Op V) = noChange from rfl, step_noChange]
    exact projF_onBox _ _ _ (fun _ => rfl)
  | setExplainer t v =>
    rw [show mfnOp b (.setExplainer t v : Op V) = noChange from rfl, step_noChange]
    exact projF_onBox _ _ _ (fun _ => rfl)
  | setLogger t v =>
    rw [show mfnOp b (.setLogger t v : Op V) = noChange from rfl, step_noChange]
    exact projF_onBox _ _ _ (fun _ => rfl)
  | setTracer t v =>
    rw [show mfnOp b (.setTracer t v : Op V) = noChange from rfl, step_noChange]
    exact projF_onBox _ _ _ (fun _ => rfl)

theorem projF_run (b : Builtin) (h : List (Op V)) : projF (run b h) = Store.run (h.map (mfnOp b)) := by
  induction h with
  | nil => rfl
  | cons op h ih =>
    rw [show run b (op :: h) = (run b h).step b op from rfl, projF_step b (wf_run b h) op, ih]; rfl

theorem like_fn (b : Builtin) (op : Op V) : Like replay (fnOp b op) (mfnOp b op) := by
  cases op with
  | newRoot => have := Like.fresh (g := replay) b.fns.reverse; rwa [replay_reverse] at this
  | newScope t => exact .dup t _ _ (fun _ => rfl)
  | copy t => exact .share t
  | appendFunctions t l => exact .write t _ _ (fun log => replay_append l log)
  | _ => exact .write 0 _ _ (fun _ => rfl)

theorem fmap_run (b : Builtin) (h : List (Op V)) (s : Nat) :
    (run b h).fmap s = (held (h.map (fnOp b)) s).map replay := by
  rw [← projF_get (wf_run b h), projF_run, store_get,
    (held_like replay (fnOp b) (mfnOp b) (like_fn b) h).2.2]

/-! ### Plugins -/

/-- The changes to the maps of plugins. -/
def mpluginOp (b : Builtin) : Op V → COp (OD Reg)
  | .newRoot => .fresh (setAll [] b.plugins)
  | .newScope t => .dup t id
  | .copy t => .share t
  | .appendPlugins t l => .write t (fun m => setAll m l)
  | _ => noChange

def projP (H : Heap V) : Store (OD Reg) :=
  ⟨H.scopes.map (fun sc => ((H.boxes[sc.box]?).map (fun x => x.plugins)).getD 0), H.pmaps⟩

theorem projP_ptr (H : Heap V) (s : Nat) (sc : Sc) (x : Box V) (h1 : H.scopes[s]? = some sc)
    (h2 : H.boxes[sc.box]? = some x) : (projP H).ptr[s]? = some x.plugins := by
  simp [projP, h1, h2]

theorem projP_get {H : Heap V} (w : WF H) (s : Nat) : (projP H).get s = H.pmap s := by
  unfold Store.get Heap.pmap Heap.box
  cases e : H.scopes[s]? with
  | none => simp [projP, e]
  | some sc =>
    obtain ⟨x, hx⟩ := w.box s sc e
    simp [projP, e, hx]

theorem projP_onBox (H : Heap V) (s : Nat) (f : Box V → Box V) (hf : ∀ x, (f x).plugins = x.plugins) :
    projP (H.onBox s f) = projP H := by
  unfold Heap.onBox
  split
  · rfl
  · rename_i sc e
    simp only [projP, Store.mk.injEq, and_true]
    apply List.map_congr_left
    intro sc' _
    rw [modify_sel (fun x : Box V => x.plugins) _ _ _ hf]

theorem projP_step (b : Builtin) {H : Heap V} (w : WF H) (op : Op V) :
    projP (H.step b op) = (projP H).step (mpluginOp b op) := by
  have hold : ∀ (sc : Sc) (y : Box V), sc ∈ H.scopes →
      (((H.boxes ++ [y])[sc.box]?).map (fun x => x.plugins)).getD 0 =
        ((H.boxes[sc.box]?).map (fun x => x.plugins)).getD 0 := by
    intro sc y hsc
    obtain ⟨s, hs⟩ := List.getElem?_of_mem hsc
    obtain ⟨x, hx⟩ := w.box s sc hs
    rw [List.getElem?_append_left (List.getElem?_eq_some_iff.1 hx).1]
  cases op with
  | newRoot =>
    simp only [Heap.step, mpluginOp, Store.step, projP, Store.mk.injEq, and_true, List.map_append,
      List.map_singleton, List.map_nil, List.map_cons]
    rw [List.map_congr_left (fun sc hsc => hold sc _ hsc)]
    simp
  | newScope t =>
    simp only [mpluginOp, Store.step, projP_get w]
    cases e : H.scopes[t]? with
    | none => simp [Heap.step, Heap.box, Heap.pmap, e]
    | some sc =>
      obtain ⟨x, hx⟩ := w.box t sc e
      obtain ⟨m, hm⟩ := w.plugins x (List.mem_of_getElem? hx)
      simp only [Heap.step, Heap.box, Heap.pmap, e, hx, Option.bind_some, hm, Option.getD_some, id]
      simp only [projP, Store.mk.injEq, and_true, List.map_append, List.map_singleton, List.map_nil, List.map_cons]
      rw [List.map_congr_left (fun sc hsc => hold sc _ hsc)]
      simp
  | copy t =>
    simp only [mpluginOp, Store.step, Heap.step]
    cases e : H.scopes[t]? with
    | none => simp [projP, e]
    | some sc => simp [projP, e]
  | clearContext t =>
    rw [show mpluginOp b (.clearContext t : Op V) = noChange from rfl, step_noChange]
    simp only [Heap.step, Heap.box]
    cases e : H.scopes[t]? with
    | none => rfl
    | some sc =>
      obtain ⟨x, hx⟩ := w.box t sc e
      simp only [hx]
      simp only [projP, Store.mk.injEq, and_true]
      apply List.ext_getElem?
      intro j
      rw [List.getElem?_map, List.getElem?_map, List.getElem?_set]
      by_cases ej : t = j
      · subst ej
        rw [if_pos rfl, if_pos (List.getElem?_eq_some_iff.1 e).1, e]
        simp [hx]
      · rw [if_neg ej]
        cases ej : H.scopes[j]? with
        | none => rfl
        | some sc' =>
          simp only [Option.map_some, Option.some.injEq]
          exact hold sc' _ (List.mem_of_getElem? ej)
  | appendPlugins t l =>
    simp only [mpluginOp, Store.step, Heap.step, Heap.box]
    cases e : H.scopes[t]? with
    | none => simp [projP, e]
    | some sc =>
      obtain ⟨x, hx⟩ := w.box t sc e
      simp only [hx, projP_ptr H t sc x e hx]
      rfl
  | appendFunctions t l =>
    rw [show mpluginOp b (.appendFunctions t l : Op V) = noChange from rfl, step_noChange]
    simp only [Heap.step]
    split <;> rfl
  | enableExplain t =>
    rw [show mpluginOp b (.enableExplain t : Op V) = noChange from rfl, step_noChange]
    simp only [Heap.step, projP, Store.mk.injEq, and_true]
    exact map_explain _ _ _ (fun _ => rfl)
  | setContext t k v =>
    rw [show mpluginOp b (.setContext t k v : Op V) = noChange from rfl, step_noChange]
    exact projP_onBox _ _ _ (fun _ => rfl)
  | addImpls t l =>
    rw [show mpluginOp b (.addImpls t l : Op V) = noChange from rfl, step_noChange]
    exact projP_onBox _ _ _ (fun _ => rfl)
  | setSorter t v =>
    rw [show mpluginOp b (.setSorter t v : Op V) = noChange from rfl, step_noChange]
    exact projP_onBox _ _ _ (fun _ => rfl)
  | setGrouper t v =>
    rw [show mpluginOp b (.setGrouper t v : Op V) = noChange from rfl, step_noChange]
    exact projP_onBox _ _ _ (fun _ => rfl)
  | setMaterializer t v =>
    rw [show mpluginOp b (.setMaterializer t v : Op V) = noChange from rfl, step_noChange]
    exact projP_onBox _ _ _ (fun _ => rfl)
  | setExplainer t v =>
    rw [show mpluginOp b (.setExplainer t v : Op V) = noChange from rfl, step_noChange]
    exact projP_onBox _ _ _ (fun _ => rfl)
  | setLogger t v =>
    rw [show mpluginOp b (.setLogger t v : Op V) = noChange from rfl, step_noChange]
    exact projP_onBox _ _ _ (fun _ => rfl)
  | setTracer t v =>
    rw [show mpluginOp b (.setTracer t v : Op V) = noChange from rfl, step_noChange]
    exact projP_onBox _ _ _ (fun _ => rfl)

theorem projP_run (b : Builtin) (h : List (Op V)) : projP (run b h) = Store.run (h.map (mpluginOp b)) := by
  induction h with
  | nil => rfl
  | cons op h ih =>
    rw [show run b (op :: h) = (run b h).step b op from rfl, projP_step b (wf_run b h) op, ih]; rfl

theorem like_plugin (b : Builtin) (op : Op V) : Like replay (pluginOp b op) (mpluginOp b op) := by
  cases op with
  | newRoot => have := Like.fresh (g := replay) b.plugins.reverse; rwa [replay_reverse] at this
  | newScope t => exact .dup t _ _ (fun _ => rfl)
  | copy t => exact .share t
  | appendPlugins t l => exact .write t _ _ (fun log => replay_append l log)
  | _ => exact .write 0 _ _ (fun _ => rfl)

theorem pmap_run (b : Builtin) (h : List (Op V)) (s : Nat) :
    (run b h).pmap s = (held (h.map (pluginOp b)) s).map replay := by
  rw [← projP_get (wf_run b h), projP_run, store_get,
    (held_like replay (pluginOp b) (mpluginOp b) (like_plugin b) h).2.2]

/-! ### Dispatchers -/

/-- A dispatcher without its references. -/
def norm (x : Box V) : Box V := { x with fns := 0, plugins := 0 }

/-- The changes to dispatchers. -/
def boxOp (b : Builtin) : Op V → COp (Box V)
  | .newRoot => .fresh { fns := 0, plugins := 0, impls := (addImpls (fun _ => []) b.impls).1, ctx := [],
                         sorter := 0, grouper := 0, materializer := 0, explainer := none,
                         logger := none, tracer := none }
  | .newScope t => .dup t (fun x => { x with ctx := [] })
  | .copy t => .share t
  | .clearContext t => .fork t (fun x => { x with ctx := [], explainer := none })
  | .setContext t k v => .write t (fun x => { x with ctx := x.ctx.set k v })
  | .appendFunctions _ _ => noChange
  | .appendPlugins _ _ => noChange
  | .addImpls t l => .write t (fun x => { x with impls := (addImpls x.impls l).1 })
  | .setSorter t v => .write t (fun x => { x with sorter := v })
  | .setGrouper t v => .write t (fun x => { x with grouper := v })
  | .setMaterializer t v => .write t (fun x => { x with materializer := v })
  | .setExplainer t v => .write t (fun x => { x with explainer := v })
  | .setLogger t v => .write t (fun x => { x with logger := v })
  | .setTracer t v => .write t (fun x => { x with tracer := v })
  | .enableExplain _ => noChange

def projB (H : Heap V) : Store (Box V) := ⟨H.scopes.map (·.box), H.boxes.map norm⟩

theorem projB_get (H : Heap V) (s : Nat) : (projB H).get s = (H.box s).map norm := by
  unfold Store.get Heap.box
  cases e : H.scopes[s]? with
  | none => simp [projB, e]
  | some sc => simp [projB, e]

theorem projB_onBox (H : Heap V) (s : Nat) (f : Box V → Box V) (hf : ∀ x, norm (f x) = f (norm x)) :
    projB (H.onBox s f) = (projB H).step (.write s f) := by
  unfold Heap.onBox
  cases e : H.scopes[s]? with
  | none => simp [projB, Store.step, e]
  | some sc =>
    simp only [projB, Store.step, List.getElem?_map, e, Option.map_some, Store.mk.injEq, true_and]
    apply List.ext_getElem?
    intro j
    rw [List.getElem?_map, List.getElem?_modify, List.getElem?_modify, List.getElem?_map]
    cases H.boxes[j]? with
    | none => rfl
    | some x => by_cases e1 : sc.box = j <;> simp [e1, hf]

theorem projB_step (b : Builtin) {H : Heap V} (w : WF H) (op : Op V) :
    projB (H.step b op) = (projB H).step (boxOp b op) := by
  cases op with
  | newRoot => simp [Heap.step, boxOp, Store.step, projB, norm]
  | newScope t =>
    simp only [boxOp, Store.step, projB_get, Heap.step]
    cases e : H.box t with
    | none => rfl
    | some x => simp [projB, norm]
  | copy t =>
    simp only [boxOp, Store.step, Heap.step]
    cases e : H.scopes[t]? with
    | none => simp [projB, e]
    | some sc => simp [projB, e]
  | clearContext t =>
    simp only [boxOp, Store.step, projB_get, Heap.step]
    cases e : H.scopes[t]? with
    | none => simp [Heap.box, e]
    | some sc =>
      obtain ⟨x, hx⟩ := w.box t sc e
      have hb : H.box t = some x := by simp [Heap.box, e, hx]
      simp only [hb, Option.map_some]
      simp [projB, norm, List.map_set]
  | appendFunctions t l =>
    rw [show boxOp b (.appendFunctions t l : Op V) = noChange from rfl, step_noChange]
    simp only [Heap.step]
    split <;> rfl
  | appendPlugins t l =>
    rw [show boxOp b (.appendPlugins t l : Op V) = noChange from rfl, step_noChange]
    simp only [Heap.step]
    split <;> rfl
  | enableExplain t =>
    rw [show boxOp b (.enableExplain t : Op V) = noChange from rfl, step_noChange]
    simp only [Heap.step, projB, Store.mk.injEq, and_true]
    exact map_explain _ _ _ (fun _ => rfl)
  | setContext t k v => exact projB_onBox _ _ _ (fun _ => rfl)
  | addImpls t l => exact projB_onBox _ _ _ (fun _ => rfl)
  | setSorter t v => exact projB_onBox _ _ _ (fun _ => rfl)
  | setGrouper t v => exact projB_onBox _ _ _ (fun _ => rfl)
  | setMaterializer t v => exact projB_onBox _ _ _ (fun _ => rfl)
  | setExplainer t v => exact projB_onBox _ _ _ (fun _ => rfl)
  | setLogger t v => exact projB_onBox _ _ _ (fun _ => rfl)
  | setTracer t v => exact projB_onBox _ _ _ (fun _ => rfl)

theorem projB_run (b : Builtin) (h : List (Op V)) : projB (run b h) = Store.run (h.map (boxOp b)) := by
  induction h with
  | nil => rfl
  | cons op h ih =>
    rw [show run b (op :: h) = (run b h).step b op from rfl, projB_step b (wf_run b h) op, ih]; rfl

theorem box_run (b : Builtin) (h : List (Op V)) (s : Nat) :
    ((run b h).box s).map norm = held (h.map (boxOp b)) s := by
  rw [← projB_get, projB_run, store_get]

theorem registered_cons (p : Proto) (i : Impl) (l : List Impl) :
    registered p (i :: l) = match i.proto with
      | none => []
      | some q => if q = p then i :: registered p l else registered p l := by
  unfold registered
  cases e : i.proto with
  | none => simp [List.takeWhile_cons, e]
  | some q =>
    by_cases e1 : q = p
    · simp [List.takeWhile_cons, e, e1]
    · simp [List.takeWhile_cons, e, e1]

theorem addImpls_registered (p : Proto) (l : List Impl) :
    ∀ t : Proto → List Impl, (addImpls t l).1 p = (registered p l).reverse ++ t p := by
  induction l with
  | nil => intro t; rfl
  | cons i l ih =>
    intro t
    rw [registered_cons]
    cases e : i.proto with
    | none => simp [addImpls, e]
    | some q =>
      simp only [addImpls, e, ih]
      by_cases e1 : q = p
      · simp [putImpl, e1]
      · simp only [putImpl, if_neg (fun x : p = q => e1 x.symm), if_neg e1]

theorem like_impl (b : Builtin) (p : Proto) (op : Op V) :
    Like (fun x : Box V => x.impls p) (boxOp b op) (implOp b p op) := by
  cases op with
  | newRoot =>
    have := Like.fresh (g := fun x : Box V => x.impls p)
      { fns := 0, plugins := 0, impls := (addImpls (fun _ => []) b.impls).1, ctx := [],
        sorter := 0, grouper := 0, materializer := 0, explainer := none, logger := none, tracer := none }
    simp only [addImpls_registered, List.append_nil] at this
    exact this
  | newScope t => exact .dup t _ _ (fun _ => rfl)
  | copy t => exact .share t
  | clearContext t => exact .fork t _ _ (fun _ => rfl)
  | addImpls t l => exact .write t _ _ (fun x => addImpls_registered p l x.impls)
  | appendFunctions t l => exact .write 0 _ _ (fun _ => rfl)
  | appendPlugins t l => exact .write 0 _ _ (fun _ => rfl)
  | enableExplain t => exact .write 0 _ _ (fun _ => rfl)
  | _ => exact .idle _ 0 _ (fun _ => rfl)

theorem like_settings (b : Builtin) (op : Op V) :
    Like (fun x : Box V => (⟨x.sorter, x.grouper, x.materializer, x.logger, x.tracer⟩ : Settings))
      (boxOp b op) (settingOp op) := by
  cases op with
  | newRoot => exact .fresh (g := fun x : Box V => (⟨x.sorter, x.grouper, x.materializer, x.logger, x.tracer⟩ : Settings)) _
  | newScope t => exact .dup t _ _ (fun _ => rfl)
  | copy t => exact .share t
  | clearContext t => exact .fork t _ _ (fun _ => rfl)
  | setSorter t v => exact .write t _ _ (fun _ => rfl)
  | setGrouper t v => exact .write t _ _ (fun _ => rfl)
  | setMaterializer t v => exact .write t _ _ (fun _ => rfl)
  | setLogger t v => exact .write t _ _ (fun _ => rfl)
  | setTracer t v => exact .write t _ _ (fun _ => rfl)
  | appendFunctions t l => exact .write 0 _ _ (fun _ => rfl)
  | appendPlugins t l => exact .write 0 _ _ (fun _ => rfl)
  | enableExplain t => exact .write 0 _ _ (fun _ => rfl)
  | _ => exact .idle _ 0 _ (fun _ => rfl)

theorem like_explainer (b : Builtin) (op : Op V) :
    Like (fun x : Box V => x.explainer) (boxOp b op) (explainerOp op) := by
  cases op with
  | newRoot => exact .fresh (g := fun x : Box V => x.explainer) _
  | newScope t => exact .dup t _ _ (fun _ => rfl)
  | copy t => exact .share t
  | clearContext t => exact .fork t _ _ (fun _ => rfl)
  | setExplainer t v => exact .write t _ _ (fun _ => rfl)
  | appendFunctions t l => exact .write 0 _ _ (fun _ => rfl)
  | appendPlugins t l => exact .write 0 _ _ (fun _ => rfl)
  | enableExplain t => exact .write 0 _ _ (fun _ => rfl)
  | _ => exact .idle _ 0 _ (fun _ => rfl)

/-- The context after a log of `SetContext`. -/
def replayCtx (log : List (Str × V)) : OD V := log.foldr (fun p m => m.set p.1 p.2) []

def mctxOp : Op V → COp (OD V)
  | .newRoot => .fresh []
  | .newScope t => .dup t (fun _ => [])
  | .copy t => .share t
  | .clearContext t => .fork t (fun _ => [])
  | .setContext t k v => .write t (fun m => m.set k v)
  | _ => noChange

theorem like_mctx (b : Builtin) (op : Op V) : Like (fun x : Box V => x.ctx) (boxOp b op) (mctxOp op) := by
  cases op with
  | newRoot => exact .fresh (g := fun x : Box V => x.ctx) _
  | newScope t => exact .dup t _ _ (fun _ => rfl)
  | copy t => exact .share t
  | clearContext t => exact .fork t _ _ (fun _ => rfl)
  | setContext t k v => exact .write t _ _ (fun _ => rfl)
  | appendFunctions t l => exact .write 0 _ _ (fun _ => rfl)
  | appendPlugins t l => exact .write 0 _ _ (fun _ => rfl)
  | enableExplain t => exact .write 0 _ _ (fun _ => rfl)
  | _ => exact .idle _ 0 _ (fun _ => rfl)

theorem like_ctx (op : Op V) : Like (replayCtx (V := V)) (ctxOp op) (mctxOp op) := by
  cases op with
  | newRoot => exact .fresh (g := replayCtx) _
  | newScope t => exact .dup t _ _ (fun _ => rfl)
  | copy t => exact .share t
  | clearContext t => exact .fork t _ _ (fun _ => rfl)
  | setContext t k v => exact .write t _ _ (fun _ => rfl)
  | _ => exact .idle 0 0 _ (fun _ => rfl)

theorem get_set {A : Type} (m : OD A) (k k' : Str) (v : A) :
    (m.set k v).get k' = if k = k' then some v else m.get k' := by
  by_cases e : k = k'
  · rw [if_pos e, ← e, OD.get_set_self]
  · rw [if_neg e, OD.get_set_ne _ _ (fun x : k' = k => e x.symm)]

theorem replay_get (log : List (Str × Reg)) (k : Str) : (replay log).get k = newest k log := by
  induction log with
  | nil => rfl
  | cons p log ih =>
    have h1 : replay (p :: log) = (replay log).set p.1 p.2 := by
      simp [replay, setAll, List.foldl_append]
    rw [h1, get_set, ih]
    by_cases e : p.1 = k
    · simp [newest, e]
    · simp [newest, e]

theorem replayCtx_get (log : List (Str × V)) (k : Str) : (replayCtx log).get k = newest k log := by
  induction log with
  | nil => rfl
  | cons p log ih =>
    rw [show replayCtx (p :: log) = (replayCtx log).set p.1 p.2 from rfl, get_set, ih]
    by_cases e : p.1 = k
    · simp [newest, e]
    · simp [newest, e]

/-! ### The explain flag -/

def projE (H : Heap V) : Store Bool := ⟨List.range H.scopes.length, H.scopes.map (·.explain)⟩

theorem projE_get (H : Heap V) (s : Nat) : (projE H).get s = (H.scopes[s]?).map (·.explain) := by
  unfold Store.get
  simp only [projE, List.getElem?_map]
  rcases Nat.lt_or_ge s H.scopes.length with hs | hs
  · rw [List.getElem?_range hs]; simp
  · rw [List.getElem?_eq_none (by simpa using hs), List.getElem?_eq_none hs]; rfl

theorem projE_onBox (H : Heap V) (s : Nat) (f : Box V → Box V) : projE (H.onBox s f) = projE H := by
  unfold Heap.onBox; split <;> rfl

theorem projE_step (b : Builtin) {H : Heap V} (w : WF H) (op : Op V) :
    projE (H.step b op) = (projE H).step (explainOp op) := by
  cases op with
  | newRoot => simp [Heap.step, explainOp, Store.step, projE, List.range_succ]
  | newScope t =>
    simp only [explainOp, Store.step, projE_get, Heap.step]
    cases e : H.scopes[t]? with
    | none => simp [Heap.box, e]
    | some sc =>
      obtain ⟨x, hx⟩ := w.box t sc e
      simp [Heap.box, e, hx, projE, List.range_succ]
  | copy t =>
    simp only [explainOp, Store.step, projE_get, Heap.step]
    cases e : H.scopes[t]? with
    | none => rfl
    | some sc => simp [projE, List.range_succ]
  | clearContext t =>
    rw [show explainOp (.clearContext t : Op V) = noChange from rfl, step_noChange]
    simp only [Heap.step]
    split
    · rename_i sc x e1 e2
      simp only [projE, List.length_set, Store.mk.injEq, true_and]
      apply List.ext_getElem?
      intro j
      rw [List.getElem?_map, List.getElem?_map, List.getElem?_set]
      by_cases ej : t = j
      · subst ej
        rw [if_pos rfl, if_pos (List.getElem?_eq_some_iff.1 e1).1, e1]; rfl
      · rw [if_neg ej]
    · rfl
  | enableExplain t =>
    simp only [explainOp, Heap.step, Store.step]
    rcases Nat.lt_or_ge t H.scopes.length with hs | hs
    · have : (projE H).ptr[t]? = some t := by simp [projE, List.getElem?_range hs]
      rw [this]
      simp only [projE, List.length_modify, Store.mk.injEq, true_and]
      apply List.ext_getElem?
      intro j
      rw [List.getElem?_map, List.getElem?_modify, List.getElem?_modify, List.getElem?_map]
      cases H.scopes[j]? with
      | none => rfl
      | some sc => by_cases e : t = j <;> simp [e]
    · have : (projE H).ptr[t]? = none := List.getElem?_eq_none (by simpa [projE] using hs)
      rw [this]
      simp only [projE, List.length_modify, Store.mk.injEq, true_and]
      apply List.ext_getElem?
      intro j
      rw [List.getElem?_map, List.getElem?_modify, List.getElem?_map]
      cases e1 : H.scopes[j]? with
      | none => rfl
      | some sc =>
        have := (List.getElem?_eq_some_iff.1 e1).1
        simp [show ¬ t = j by omega]
  | appendFunctions t l =>
    rw [show explainOp (.appendFunctions t l : Op V) = noChange from rfl, step_noChange]
    simp only [Heap.step]
    split <;> rfl
  | appendPlugins t l =>
    rw [show explainOp (.appendPlugins t l : Op V) = noChange from rfl, step_noChange]
    simp only [Heap.step]
    split <;> rfl
  | setContext t k v =>
    rw [show explainOp (.setContext t k v : Op V) = noChange from rfl, step_noChange]
    exact projE_onBox _ _ _
  | addImpls t l =>
    rw [show explainOp (.addImpls t l : Op V) = noChange from rfl, step_noChange]
    exact projE_onBox _ _ _
  | setSorter t v =>
    rw [show explainOp (.setSorter t v : Op V) = noChange from rfl, step_noChange]
    exact projE_onBox _ _ _
  | setGrouper t v =>
    rw [show explainOp (.setGrouper t v : Op V) = noChange from rfl, step_noChange]
    exact projE_onBox _ _ _
  | setMaterializer t v =>
    rw [show explainOp (.setMaterializer t v : Op V) = noChange from rfl, step_noChange]
    exact projE_onBox _ _ _
  | setExplainer t v =>
    rw [show explainOp (.setExplainer t v : Op V) = noChange from rfl, step_noChange]
    exact projE_onBox _ _ _
  | setLogger t v =>
    rw [show explainOp (.setLogger t v : Op V) = noChange from rfl, step_noChange]
    exact projE_onBox _ _ _
  | setTracer t v =>
    rw [show explainOp (.setTracer t v : Op V) = noChange from rfl, step_noChange]
    exact projE_onBox _ _ _

theorem projE_run (b : Builtin) (h : List (Op V)) : projE (run b h) = Store.run (h.map explainOp) := by
  induction h with
  | nil => rfl
  | cons op h ih =>
    rw [show run b (op :: h) = (run b h).step b op from rfl, projE_step b (wf_run b h) op, ih]; rfl

/-! ## C65 -/

/-- C65. `GetFunction` gives the most recent registration of the name among those the
history makes visible in the scope. -/
theorem C65_functions (b : Builtin) (h : List (Op V)) (s : Nat) (name : Str) :
    (run b h).getFunction s name = (held (h.map (fnOp b)) s).bind (newest name) := by
  unfold Heap.getFunction
  rw [fmap_run]
  cases held (h.map (fnOp b)) s with
  | none => rfl
  | some log => exact replay_get log name

/-- C65. The same for `GetPlugin`. -/
theorem C65_plugins (b : Builtin) (h : List (Op V)) (s : Nat) (name : Str) :
    (run b h).getPlugin s name = (held (h.map (pluginOp b)) s).bind (newest name) := by
  unfold Heap.getPlugin
  rw [pmap_run]
  cases held (h.map (pluginOp b)) s with
  | none => rfl
  | some log => exact replay_get log name

/-- C65. The implementations a scope searches for an operator, newest first: those
registered with it by a visible call, where an object is registered with the first of
its protocols only. -/
theorem C65_protocols (b : Builtin) (h : List (Op V)) (s : Nat) (p : Proto) :
    (run b h).impls s p = (held (h.map (implOp b p)) s).getD [] := by
  rw [(held_like _ (boxOp b) (implOp b p) (like_impl b p) h).2.2 s, ← box_run]
  unfold Heap.impls
  cases (run b h).box s <;> rfl

/-- C65. `GetContext` gives the value of the most recent visible `SetContext`. -/
theorem C65_context (b : Builtin) (h : List (Op V)) (s : Nat) (name : Str) :
    (run b h).getContext s name = (held (h.map ctxOp) s).bind (newest name) := by
  have h1 := (held_like _ (boxOp b) mctxOp (like_mctx b) h).2.2 s
  have h2 := (held_like _ ctxOp mctxOp (like_ctx (V := V)) h).2.2 s
  rw [← box_run] at h1
  rw [h1] at h2
  unfold Heap.getContext
  cases e : (run b h).box s with
  | none =>
    rw [e] at h2
    cases e2 : held (h.map ctxOp) s with
    | none => rfl
    | some log => rw [e2] at h2; cases h2
  | some x =>
    rw [e] at h2
    cases e2 : held (h.map ctxOp) s with
    | none => rw [e2] at h2; cases h2
    | some log =>
      rw [e2] at h2
      have h3 : x.ctx = replayCtx log := by simpa [norm] using h2
      simp only [Option.bind_some]
      rw [h3, replayCtx_get]

/-- C65. Sorter, grouper, materializer and loggers. -/
theorem C65_settings (b : Builtin) (h : List (Op V)) (s : Nat) :
    (run b h).settings s = held (h.map settingOp) s := by
  rw [(held_like _ (boxOp b) settingOp (like_settings b) h).2.2 s, ← box_run]
  unfold Heap.settings
  cases (run b h).box s <;> rfl

/-- C65. The explainer. -/
theorem C65_explainer (b : Builtin) (h : List (Op V)) (s : Nat) :
    (run b h).explainerOf s =
      if held (h.map explainOp) s = some true then (held (h.map explainerOp) s).bind id else none := by
  rw [← store_get, ← projE_run b, projE_get]
  have h1 := (held_like _ (boxOp b) explainerOp (like_explainer b) h).2.2 s
  rw [← box_run] at h1
  rw [h1]
  unfold Heap.explainerOf Heap.box
  cases e : (run b h).scopes[s]? with
  | none => rfl
  | some sc =>
    cases e2 : sc.explain with
    | false => simp [e2]
    | true =>
      simp only [e2, Option.map_some, if_true]
      cases (run b h).boxes[sc.box]? <;> rfl

/-! ### Sharing and isolation -/

/-- Everything a scope shows. -/
structure Shows (V : Type) where
  functions : Str → Option Reg
  plugins : Str → Option Reg
  context : Str → Option V
  impls : Proto → List Impl
  settings : Option Settings
  explainer : Option Nat

def Heap.shows (H : Heap V) (s : Nat) : Shows V :=
  ⟨H.getFunction s, H.getPlugin s, H.getContext s, H.impls s, H.settings s, H.explainerOf s⟩

/-- The scope a call is made on. -/
def Op.on : Op V → Option Nat
  | .newRoot => none
  | .newScope s => some s
  | .copy s => some s
  | .clearContext s => some s
  | .setContext s _ _ => some s
  | .appendFunctions s _ => some s
  | .appendPlugins s _ => some s
  | .addImpls s _ => some s
  | .setSorter s _ => some s
  | .setGrouper s _ => some s
  | .setMaterializer s _ => some s
  | .setExplainer s _ => some s
  | .setLogger s _ => some s
  | .setTracer s _ => some s
  | .enableExplain s => some s

theorem shows_eq (b : Builtin) (h h' : List (Op V)) (s s' : Nat)
    (e1 : held (h.map (fnOp b)) s = held (h'.map (fnOp b)) s')
    (e2 : held (h.map (pluginOp b)) s = held (h'.map (pluginOp b)) s')
    (e3 : held (h.map ctxOp) s = held (h'.map ctxOp) s')
    (e4 : ∀ p, held (h.map (implOp b p)) s = held (h'.map (implOp b p)) s')
    (e5 : held (h.map settingOp) s = held (h'.map settingOp) s')
    (e6 : held (h.map explainerOp) s = held (h'.map explainerOp) s')
    (e7 : held (h.map explainOp) s = held (h'.map explainOp) s') :
    (run b h).shows s = (run b h').shows s' := by
  unfold Heap.shows
  simp only [Shows.mk.injEq]
  refine ⟨funext fun k => ?_, funext fun k => ?_, funext fun k => ?_, funext fun p => ?_, ?_, ?_⟩
  · rw [C65_functions, C65_functions, e1]
  · rw [C65_plugins, C65_plugins, e2]
  · rw [C65_context, C65_context, e3]
  · rw [C65_protocols, C65_protocols, e4]
  · rw [C65_settings, C65_settings, e5]
  · rw [C65_explainer, C65_explainer, e6, e7]

/-- Operations that leave the cell of scope `n` to it alone. -/
def Leaves {A : Type} (n : Nat) : COp A → Prop
  | .fresh _ => True
  | .dup _ _ => True
  | .share t => t ≠ n
  | .fork t _ => t ≠ n
  | .write t f => t ≠ n ∨ f = id

/-- Operations on scopes from `n` on. -/
def Above {A : Type} (n : Nat) : COp A → Prop
  | .fresh _ => True
  | .dup _ _ => True
  | .share t => n ≤ t
  | .fork t _ => n ≤ t
  | .write t f => n ≤ t ∨ f = id

theorem held_none {A : Type} (h : List (COp A)) (s : Nat) (hs : count h ≤ s) : held h s = none := by
  rw [← store_get]; exact (get_none (storeInv h)).2 hs

theorem count_mono {A : Type} (h' h : List (COp A)) : count h ≤ count (h' ++ h) := by
  induction h' with
  | nil => exact Nat.le_refl _
  | cons op h' ih =>
    have : count (h' ++ h) ≤ count (op :: (h' ++ h)) := by
      cases op <;> simp only [count] <;> (try split) <;> omega
    exact Nat.le_trans ih this

theorem held_alone {A : Type} (h : List (COp A)) (n : Nat) (hn : n < count h)
    (ha : ∀ s, s ≠ n → cell h s ≠ cell h n) (h' : List (COp A)) (hl : ∀ op ∈ h', Leaves n op) :
    held (h' ++ h) n = held h n ∧ ∀ s, s ≠ n → cell (h' ++ h) s ≠ cell (h' ++ h) n := by
  induction h' with
  | nil => exact ⟨rfl, ha⟩
  | cons op h' ih =>
    obtain ⟨i1, i2⟩ := ih (fun o ho => hl o (List.mem_cons_of_mem _ ho))
    have hop := hl op (List.mem_cons_self ..)
    have hc := count_mono h' h
    have I := storeInv (h' ++ h)
    obtain ⟨c, hcell, hlt⟩ := cell_some I (show n < count (h' ++ h) by omega)
    show held (op :: (h' ++ h)) n = held h n ∧
      ∀ s, s ≠ n → cell (op :: (h' ++ h)) s ≠ cell (op :: (h' ++ h)) n
    generalize h' ++ h = k at *
    have hnk : n ≠ count k := by omega
    have hnew : ∀ s, s ≠ n → ∀ P : Prop, [Decidable P] → (if P then some k.length else cell k s) ≠ cell k n := by
      intro s hs P _ e
      split at e
      · rw [hcell] at e; cases e; omega
      · exact i2 s hs e
    cases op with
    | fresh a =>
      refine ⟨by simp [held, hnk, i1], fun s hs => ?_⟩
      simp only [cell, if_neg hnk]
      exact hnew s hs _
    | dup t f =>
      refine ⟨by simp [held, hnk, i1], fun s hs => ?_⟩
      simp only [cell, hnk, false_and, if_false]
      exact hnew s hs _
    | share t =>
      refine ⟨by simp [held, hnk, i1], fun s hs => ?_⟩
      simp only [cell, if_neg hnk]
      split
      · exact i2 t hop
      · exact i2 s hs
    | fork t f =>
      have hnt : ¬ n = t := fun e => hop e.symm
      refine ⟨by simp [held, hnt, i1], fun s hs => ?_⟩
      simp only [cell, hnt, false_and, if_false]
      exact hnew s hs _
    | write t f =>
      refine ⟨?_, fun s hs => by simp only [cell]; exact i2 s hs⟩
      simp only [held]
      rcases hop with hop | hop
      · rw [if_neg (fun e => i2 t hop e.symm), i1]
      · subst hop
        rw [i1]; split <;> cases held h n <;> rfl

theorem held_below {A : Type} (h : List (COp A)) (n : Nat) (hn : n ≤ count h)
    (ha : ∀ s t, s < n → n ≤ t → cell h s ≠ cell h t) (h' : List (COp A)) (hl : ∀ op ∈ h', Above n op) :
    (∀ s, s < n → held (h' ++ h) s = held h s) ∧
    ∀ s t, s < n → n ≤ t → cell (h' ++ h) s ≠ cell (h' ++ h) t := by
  induction h' with
  | nil => exact ⟨fun _ _ => rfl, ha⟩
  | cons op h' ih =>
    obtain ⟨i1, i2⟩ := ih (fun o ho => hl o (List.mem_cons_of_mem _ ho))
    have hop := hl op (List.mem_cons_self ..)
    have hc := count_mono h' h
    have I := storeInv (h' ++ h)
    have hold : ∀ s, s < n → ∃ c, cell (h' ++ h) s = some c ∧ c < (h' ++ h).length :=
      fun s hs => cell_some I (show s < count (h' ++ h) by omega)
    show (∀ s, s < n → held (op :: (h' ++ h)) s = held h s) ∧
      ∀ s t, s < n → n ≤ t → cell (op :: (h' ++ h)) s ≠ cell (op :: (h' ++ h)) t
    generalize h' ++ h = k at *
    have hnew : ∀ s, s < n → ∀ t, n ≤ t → ∀ P : Prop, [Decidable P] →
        cell k s ≠ (if P then some k.length else cell k t) := by
      intro s hs t ht P _ e
      split at e
      · obtain ⟨c, h1, h2⟩ := hold s hs
        rw [h1] at e; cases e; omega
      · exact i2 s t hs ht e
    cases op with
    | fresh a =>
      refine ⟨fun s hs => by simp [held, show s ≠ count k by omega, i1 s hs], fun s t hs ht => ?_⟩
      simp only [cell, if_neg (show s ≠ count k by omega)]
      exact hnew s hs t ht _
    | dup u f =>
      refine ⟨fun s hs => by simp [held, show s ≠ count k by omega, i1 s hs], fun s t hs ht => ?_⟩
      simp only [cell, show ¬ s = count k by omega, false_and, if_false]
      exact hnew s hs t ht _
    | share u =>
      refine ⟨fun s hs => by simp [held, show s ≠ count k by omega, i1 s hs], fun s t hs ht => ?_⟩
      simp only [cell, if_neg (show s ≠ count k by omega)]
      split
      · exact i2 s u hs hop
      · exact i2 s t hs ht
    | fork u f =>
      have hop' : n ≤ u := hop
      refine ⟨fun s hs => by simp [held, show s ≠ u by omega, i1 s hs], fun s t hs ht => ?_⟩
      simp only [cell, show ¬ s = u by omega, false_and, if_false]
      exact hnew s hs t ht _
    | write u f =>
      refine ⟨fun s hs => ?_, fun s t hs ht => by simp only [cell]; exact i2 s t hs ht⟩
      simp only [held]
      rcases hop with hop | hop
      · rw [if_neg (i2 s u hs hop), i1 s hs]
      · subst hop
        rw [i1 s hs]; split <;> cases held h s <;> rfl

/-- How the kinds of registered things react to calls. -/
structure Kind (A : Type) (k : Op V → COp A) : Prop where
  root : ∃ a, k .newRoot = .fresh a
  new : ∀ t, ∃ f, k (.newScope t) = .dup t f
  leaves : ∀ n op, op.on ≠ some n → Leaves n (k op)
  above : ∀ n op, (∀ t, op.on = some t → n ≤ t) → Above n (k op)
  copies : ∀ t, k (.copy t) = .share t ∨ ∃ f, k (.copy t) = .dup t f
  others : ∀ op, op ≠ .newRoot → (∀ t, op ≠ .newScope t) → (∀ t, op ≠ .copy t) →
    (∃ t f, k op = .fork t f) ∨ ∃ t f, k op = .write t f

theorem leaves_on {A : Type} {n t : Nat} {f : A → A} (h : some t ≠ some n) : Leaves n (.write t f) :=
  .inl (fun e => h (by rw [e]))

theorem kind_fn (b : Builtin) : Kind (V := V) _ (fnOp b) := by
  refine ⟨⟨_, rfl⟩, fun t => ⟨_, rfl⟩, fun n op h => ?_, fun n op h => ?_, fun t => .inl rfl, fun op h1 h2 h3 => ?_⟩
  · cases op <;> first | trivial | exact .inr rfl | exact leaves_on h | exact fun e => h (by rw [e]; rfl)
  · cases op <;> first | trivial | exact .inr rfl | exact .inl (h _ rfl) | exact h _ rfl
  · cases op <;> first | exact .inr ⟨_, _, rfl⟩ | exact .inl ⟨_, _, rfl⟩ | exact absurd rfl h1 | exact absurd rfl (h2 _) | exact absurd rfl (h3 _)

theorem kind_plugin (b : Builtin) : Kind (V := V) _ (pluginOp b) := by
  refine ⟨⟨_, rfl⟩, fun t => ⟨_, rfl⟩, fun n op h => ?_, fun n op h => ?_, fun t => .inl rfl, fun op h1 h2 h3 => ?_⟩
  · cases op <;> first | trivial | exact .inr rfl | exact leaves_on h | exact fun e => h (by rw [e]; rfl)
  · cases op <;> first | trivial | exact .inr rfl | exact .inl (h _ rfl) | exact h _ rfl
  · cases op <;> first | exact .inr ⟨_, _, rfl⟩ | exact .inl ⟨_, _, rfl⟩ | exact absurd rfl h1 | exact absurd rfl (h2 _) | exact absurd rfl (h3 _)

theorem kind_ctx : Kind (V := V) _ ctxOp := by
  refine ⟨⟨_, rfl⟩, fun t => ⟨_, rfl⟩, fun n op h => ?_, fun n op h => ?_, fun t => .inl rfl, fun op h1 h2 h3 => ?_⟩
  · cases op <;> first | trivial | exact .inr rfl | exact leaves_on h | exact fun e => h (by rw [e]; rfl)
  · cases op <;> first | trivial | exact .inr rfl | exact .inl (h _ rfl) | exact h _ rfl
  · cases op <;> first | exact .inr ⟨_, _, rfl⟩ | exact .inl ⟨_, _, rfl⟩ | exact absurd rfl h1 | exact absurd rfl (h2 _) | exact absurd rfl (h3 _)

theorem kind_impl (b : Builtin) (p : Proto) : Kind (V := V) _ (implOp b p) := by
  refine ⟨⟨_, rfl⟩, fun t => ⟨_, rfl⟩, fun n op h => ?_, fun n op h => ?_, fun t => .inl rfl, fun op h1 h2 h3 => ?_⟩
  · cases op <;> first | trivial | exact .inr rfl | exact leaves_on h | exact fun e => h (by rw [e]; rfl)
  · cases op <;> first | trivial | exact .inr rfl | exact .inl (h _ rfl) | exact h _ rfl
  · cases op <;> first | exact .inr ⟨_, _, rfl⟩ | exact .inl ⟨_, _, rfl⟩ | exact absurd rfl h1 | exact absurd rfl (h2 _) | exact absurd rfl (h3 _)

theorem kind_setting : Kind (V := V) _ settingOp := by
  refine ⟨⟨_, rfl⟩, fun t => ⟨_, rfl⟩, fun n op h => ?_, fun n op h => ?_, fun t => .inl rfl, fun op h1 h2 h3 => ?_⟩
  · cases op <;> first | trivial | exact .inr rfl | exact leaves_on h | exact fun e => h (by rw [e]; rfl)
  · cases op <;> first | trivial | exact .inr rfl | exact .inl (h _ rfl) | exact h _ rfl
  · cases op <;> first | exact .inr ⟨_, _, rfl⟩ | exact .inl ⟨_, _, rfl⟩ | exact absurd rfl h1 | exact absurd rfl (h2 _) | exact absurd rfl (h3 _)

theorem kind_explainer : Kind (V := V) _ explainerOp := by
  refine ⟨⟨_, rfl⟩, fun t => ⟨_, rfl⟩, fun n op h => ?_, fun n op h => ?_, fun t => .inl rfl, fun op h1 h2 h3 => ?_⟩
  · cases op <;> first | trivial | exact .inr rfl | exact leaves_on h | exact fun e => h (by rw [e]; rfl)
  · cases op <;> first | trivial | exact .inr rfl | exact .inl (h _ rfl) | exact h _ rfl
  · cases op <;> first | exact .inr ⟨_, _, rfl⟩ | exact .inl ⟨_, _, rfl⟩ | exact absurd rfl h1 | exact absurd rfl (h2 _) | exact absurd rfl (h3 _)

theorem kind_explain : Kind (V := V) _ explainOp := by
  refine ⟨⟨_, rfl⟩, fun t => ⟨_, rfl⟩, fun n op h => ?_, fun n op h => ?_, fun t => .inr ⟨_, rfl⟩, fun op h1 h2 h3 => ?_⟩
  · cases op <;> first | trivial | exact .inr rfl | exact leaves_on h | exact fun e => h (by rw [e]; rfl)
  · cases op <;> first | trivial | exact .inr rfl | exact .inl (h _ rfl) | exact h _ rfl
  · cases op <;> first | exact .inr ⟨_, _, rfl⟩ | exact .inl ⟨_, _, rfl⟩ | exact absurd rfl h1 | exact absurd rfl (h2 _) | exact absurd rfl (h3 _)

/-- The number of scopes made by a history. -/
def scopesMade : List (Op V) → Nat
  | [] => 0
  | .newRoot :: h => scopesMade h + 1
  | .newScope t :: h => if t < scopesMade h then scopesMade h + 1 else scopesMade h
  | .copy t :: h => if t < scopesMade h then scopesMade h + 1 else scopesMade h
  | _ :: h => scopesMade h

theorem count_kind {A : Type} {k : Op V → COp A} (K : Kind A k) (h : List (Op V)) :
    count (h.map k) = scopesMade h := by
  induction h with
  | nil => rfl
  | cons op h ih =>
    rw [List.map_cons]
    have ho := K.others op
    cases op with
    | newRoot => obtain ⟨a, e⟩ := K.root; rw [e]; simp [count, scopesMade, ih]
    | newScope t => obtain ⟨f, e⟩ := K.new t; rw [e]; simp [count, scopesMade, ih]
    | copy t => rcases K.copies t with e | ⟨f, e⟩ <;> (rw [e]; simp [count, scopesMade, ih])
    | _ =>
      rcases ho (by simp) (by simp) (by simp) with ⟨t, f, e⟩ | ⟨t, f, e⟩ <;>
        (rw [e]; simp [count, scopesMade, ih])

/-- The cell of a scope made by `NewScope` is its own. -/
theorem new_alone {A : Type} {k : Op V → COp A} (K : Kind A k) (h : List (Op V)) (t : Nat)
    (ht : t < scopesMade h) : ∀ s, s ≠ scopesMade h →
    cell ((Op.newScope t :: h).map k) s ≠ cell ((Op.newScope t :: h).map k) (scopesMade h) := by
  intro s hs
  obtain ⟨f, e⟩ := K.new t
  simp only [List.map_cons, e, cell, count_kind K, ht, and_self, if_true, hs, false_and, if_false]
  intro e1
  have := (storeInv (h.map k)).old s _ e1
  omega

theorem held_new {A : Type} {k : Op V → COp A} (K : Kind A k) (h h' : List (Op V)) (t : Nat)
    (ht : t < scopesMade h) (hon : ∀ op ∈ h', op.on ≠ some (scopesMade h)) :
    held ((h' ++ .newScope t :: h).map k) (scopesMade h) = held ((.newScope t :: h).map k) (scopesMade h) := by
  rw [List.map_append]
  refine (held_alone _ _ ?_ (new_alone K h t ht) _ ?_).1
  · rw [count_kind K]; simp [scopesMade, ht]
  · intro o ho
    obtain ⟨op, h1, rfl⟩ := List.mem_map.1 ho
    exact K.leaves _ op (hon op h1)

theorem held_old {A : Type} {k : Op V → COp A} (K : Kind A k) (h h' : List (Op V)) (t : Nat)
    (ht : t < scopesMade h) (hon : ∀ op ∈ h', ∀ u, op.on = some u → scopesMade h ≤ u)
    (s : Nat) (hs : s < scopesMade h) :
    held ((h' ++ .newScope t :: h).map k) s = held (h.map k) s := by
  rw [List.map_append]
  have h1 := (held_below ((Op.newScope t :: h).map k) (scopesMade h)
    (by rw [count_kind K]; simp [scopesMade, ht]) ?_ (h'.map k) ?_).1 s hs
  · rw [h1]
    obtain ⟨f, e⟩ := K.new t
    simp only [List.map_cons, e, held, count_kind K, if_neg (show s ≠ scopesMade h by omega)]
  · intro s u hs hu
    by_cases e : u = scopesMade h
    · rw [e]; exact new_alone K h t ht s (by omega)
    · have h2 : cell ((Op.newScope t :: h).map k) u = none :=
        ((storeInv _).out u).2 (by rw [count_kind K]; simp [scopesMade, ht]; omega)
      obtain ⟨c, h3, _⟩ := cell_some (storeInv ((Op.newScope t :: h).map k)) (s := s)
        (by rw [count_kind K]; simp [scopesMade, ht]; omega)
      rw [h2, h3]; simp
  · intro o ho
    obtain ⟨op, h1, rfl⟩ := List.mem_map.1 ho
    exact K.above _ op (hon op h1)

/-- C65. A scope made by `scope.NewScope()` starts with the functions, plugins, operators
and settings of that scope, without context values and explanations... -/
theorem C65_new_scope (b : Builtin) (h : List (Op V)) (t : Nat) (ht : t < scopesMade h) :
    (run b (.newScope t :: h)).shows (scopesMade h) =
      { (run b h).shows t with context := fun _ => none, explainer := none } := by
  have hk : ∀ {A : Type} {k : Op V → COp A} (K : Kind A k) (f : A → A), k (.newScope t) = .dup t f →
      held ((Op.newScope t :: h).map k) (scopesMade h) = (held (h.map k) t).map f := by
    intro A k K f e
    simp only [List.map_cons, e, held, count_kind K, if_true]
  unfold Heap.shows
  simp only [Shows.mk.injEq]
  refine ⟨funext fun x => ?_, funext fun x => ?_, funext fun x => ?_, funext fun p => ?_, ?_, ?_⟩
  · rw [C65_functions, C65_functions, hk (kind_fn b) id rfl]; simp
  · rw [C65_plugins, C65_plugins, hk (kind_plugin b) id rfl]; simp
  · rw [C65_context, hk kind_ctx (fun _ => []) rfl]
    cases held (h.map ctxOp) t <;> rfl
  · rw [C65_protocols, C65_protocols, hk (kind_impl b p) id rfl]; simp
  · rw [C65_settings, C65_settings, hk kind_setting id rfl]; simp
  · rw [C65_explainer, hk kind_explain (fun _ => false) rfl]
    cases held (h.map explainOp) t <;> simp

/-- ... and is isolated: nothing done to other scopes later shows in it. -/
theorem C65_isolated_in (b : Builtin) (h h' : List (Op V)) (t : Nat) (ht : t < scopesMade h)
    (hon : ∀ op ∈ h', op.on ≠ some (scopesMade h)) :
    (run b (h' ++ .newScope t :: h)).shows (scopesMade h) =
      (run b (.newScope t :: h)).shows (scopesMade h) :=
  shows_eq b _ _ _ _ (held_new (kind_fn b) h h' t ht hon) (held_new (kind_plugin b) h h' t ht hon)
    (held_new kind_ctx h h' t ht hon) (fun p => held_new (kind_impl b p) h h' t ht hon)
    (held_new kind_setting h h' t ht hon) (held_new kind_explainer h h' t ht hon)
    (held_new kind_explain h h' t ht hon)

/-- Nothing done in the new scope, or in scopes made after it and from it, shows in the
scopes made before. -/
theorem C65_isolated_out (b : Builtin) (h h' : List (Op V)) (t : Nat) (ht : t < scopesMade h)
    (hon : ∀ op ∈ h', ∀ u, op.on = some u → scopesMade h ≤ u) (s : Nat) (hs : s < scopesMade h) :
    (run b (h' ++ .newScope t :: h)).shows s = (run b h).shows s :=
  shows_eq b _ _ _ _ (held_old (kind_fn b) h h' t ht hon s hs) (held_old (kind_plugin b) h h' t ht hon s hs)
    (held_old kind_ctx h h' t ht hon s hs) (fun p => held_old (kind_impl b p) h h' t ht hon s hs)
    (held_old kind_setting h h' t ht hon s hs) (held_old kind_explainer h h' t ht hon s hs)
    (held_old kind_explain h h' t ht hon s hs)

/-- Scopes with the same cell hold the same. -/
theorem held_same {A : Type} (h : List (COp A)) (s t : Nat) (e : cell h s = cell h t) :
    held h s = held h t := by
  have I := storeInv h
  rcases Nat.lt_or_ge s (count h) with hs | hs
  · have ht : t < count h := by
      rcases Nat.lt_or_ge t (count h) with ht | ht
      · exact ht
      · obtain ⟨c, h1, _⟩ := cell_some I hs
        rw [h1, (I.out t).2 ht] at e; cases e
    have := (I.same s t hs ht).2 e
    rw [← I.val, ← I.val]
    unfold Store.get; rw [this]
  · have ht : count h ≤ t := (I.out t).1 (by rw [← e]; exact (I.out s).2 hs)
    rw [held_none _ _ hs, held_none _ _ ht]

/-- Scopes that were copied from each other stay together until one of them moves. -/
theorem cell_together {A : Type} {k : Op V → COp A} (K : Kind A k) (hshare : ∀ t, k (.copy t) = .share t)
    (h h' : List (Op V)) (t : Nat) (ht : t < scopesMade h)
    (hclear : ∀ op ∈ h', ∀ u f, k op = .fork u f → u ≠ t ∧ u ≠ scopesMade h) :
    cell ((h' ++ .copy t :: h).map k) (scopesMade h) = cell ((h' ++ .copy t :: h).map k) t := by
  induction h' with
  | nil =>
    simp only [List.nil_append, List.map_cons, hshare, cell, count_kind K, if_true,
      if_neg (show t ≠ scopesMade h by omega)]
  | cons op h' ih =>
    have ih' := ih (fun o ho => hclear o (List.mem_cons_of_mem _ ho))
    have hcount : scopesMade h + 1 ≤ count ((h' ++ .copy t :: h).map k) := by
      have := count_mono (h'.map k) ((Op.copy t :: h).map k)
      rw [← List.map_append] at this
      refine Nat.le_trans ?_ this
      rw [count_kind K]; simp [scopesMade, ht]
    have hop := hclear op (List.mem_cons_self ..)
    show cell (k op :: (h' ++ .copy t :: h).map k) (scopesMade h) =
      cell (k op :: (h' ++ .copy t :: h).map k) t
    generalize (h' ++ .copy t :: h).map k = l at *
    cases e : k op with
    | fresh a => simp only [cell, if_neg (show scopesMade h ≠ count l by omega), if_neg (show t ≠ count l by omega), ih']
    | dup u f => simp only [cell, show ¬ scopesMade h = count l by omega, show ¬ t = count l by omega, false_and, if_false, ih']
    | share u => simp only [cell, if_neg (show scopesMade h ≠ count l by omega), if_neg (show t ≠ count l by omega), ih']
    | fork u f =>
      obtain ⟨h1, h2⟩ := hop u f e
      simp only [cell, show ¬ scopesMade h = u from fun x => h2 x.symm, show ¬ t = u from fun x => h1 x.symm, false_and, if_false, ih']
    | write u f => simp only [cell, ih']

/-- C65. A scope made by `Copy` and the scope it was copied from always show the same
functions and plugins, whoever registered them and whenever. -/
theorem C65_copy_shares_functions (b : Builtin) (h h' : List (Op V)) (t : Nat) (ht : t < scopesMade h) :
    (run b (h' ++ .copy t :: h)).getFunction (scopesMade h) = (run b (h' ++ .copy t :: h)).getFunction t ∧
    (run b (h' ++ .copy t :: h)).getPlugin (scopesMade h) = (run b (h' ++ .copy t :: h)).getPlugin t := by
  have nofork : ∀ op u f, fnOp b (op : Op V) ≠ .fork u f := by intro op u f; cases op <;> simp [fnOp, noChange]
  have nofork' : ∀ op u f, pluginOp b (op : Op V) ≠ .fork u f := by intro op u f; cases op <;> simp [pluginOp, noChange]
  constructor
  · funext k
    rw [C65_functions, C65_functions, held_same _ _ _ (cell_together (kind_fn b) (fun _ => rfl) h h' t ht
      (fun op _ u f e => absurd e (nofork op u f)))]
  · funext k
    rw [C65_plugins, C65_plugins, held_same _ _ _ (cell_together (kind_plugin b) (fun _ => rfl) h h' t ht
      (fun op _ u f e => absurd e (nofork' op u f)))]

theorem fork_clear {A : Type} {k : Op V → COp A} (hk : ∀ op u f, k op = .fork u f → op = .clearContext u)
    {h' : List (Op V)} {n t : Nat} (hc : ∀ u, .clearContext u ∈ h' → u ≠ t ∧ u ≠ n) :
    ∀ op ∈ h', ∀ u f, k op = .fork u f → u ≠ t ∧ u ≠ n := by
  intro op hop u f e
  rw [hk op u f e] at hop
  exact hc u hop

/-- C65. Until one of the two calls `ClearContext` they also show the same context values,
operators and settings. -/
theorem C65_copy_shares (b : Builtin) (h h' : List (Op V)) (t : Nat) (ht : t < scopesMade h)
    (hc : ∀ u, .clearContext u ∈ h' → u ≠ t ∧ u ≠ scopesMade h) :
    (run b (h' ++ .copy t :: h)).getContext (scopesMade h) = (run b (h' ++ .copy t :: h)).getContext t ∧
    (run b (h' ++ .copy t :: h)).impls (scopesMade h) = (run b (h' ++ .copy t :: h)).impls t ∧
    (run b (h' ++ .copy t :: h)).settings (scopesMade h) = (run b (h' ++ .copy t :: h)).settings t := by
  refine ⟨funext fun k => ?_, funext fun p => ?_, ?_⟩
  · rw [C65_context, C65_context, held_same _ _ _ (cell_together kind_ctx (fun _ => rfl) h h' t ht
      (fork_clear (fun op u f e => ?_) hc))]
    cases op <;> simp [ctxOp, noChange] at e ⊢
    exact e.1
  · rw [C65_protocols, C65_protocols, held_same _ _ _ (cell_together (kind_impl b p) (fun _ => rfl) h h' t ht
      (fork_clear (fun op u f e => ?_) hc))]
    cases op <;> simp [implOp, noChange] at e ⊢
    exact e.1
  · rw [C65_settings, C65_settings, held_same _ _ _ (cell_together kind_setting (fun _ => rfl) h h' t ht
      (fork_clear (fun op u f e => ?_) hc))]
    cases op <;> simp [settingOp, noChange] at e ⊢
    exact e.1

/-- C65. `ClearContext` empties the context of this scope and changes nothing any other
scope shows. -/
theorem C65_clear_context (b : Builtin) (h : List (Op V)) (t s : Nat) :
    (run b (.clearContext t :: h)).shows s =
      if s = t then { (run b h).shows s with context := fun _ => none, explainer := none }
      else (run b h).shows s := by
  have hkeep : ∀ {A : Type} (l : List (COp A)) (s : Nat), held (noChange :: l) s = held l s := by
    intro A l s
    simp only [noChange, held]; split <;> cases held l s <;> rfl
  by_cases e : s = t
  · subst e
    rw [if_pos rfl]
    unfold Heap.shows
    simp only [Shows.mk.injEq]
    refine ⟨funext fun k => ?_, funext fun k => ?_, funext fun k => ?_, funext fun p => ?_, ?_, ?_⟩
    · rw [C65_functions, C65_functions, List.map_cons, show fnOp b (.clearContext s : Op V) = noChange from rfl, hkeep]
    · rw [C65_plugins, C65_plugins, List.map_cons, show pluginOp b (.clearContext s : Op V) = noChange from rfl, hkeep]
    · rw [C65_context]
      simp only [List.map_cons, ctxOp, held, if_true]
      cases held (h.map ctxOp) s <;> rfl
    · rw [C65_protocols, C65_protocols]
      simp only [List.map_cons, implOp, held, if_true]
      simp
    · rw [C65_settings, C65_settings]
      simp only [List.map_cons, settingOp, held, if_true]
      simp
    · rw [C65_explainer]
      simp only [List.map_cons, explainerOp, held, if_true]
      cases held (h.map explainerOp) s <;> simp
  · rw [if_neg e]
    refine shows_eq b _ _ _ _ ?_ ?_ ?_ (fun p => ?_) ?_ ?_ ?_
    · exact hkeep _ s
    · exact hkeep _ s
    · simp only [List.map_cons, ctxOp, held, if_neg e]
    · simp only [List.map_cons, implOp, held, if_neg e]
    · simp only [List.map_cons, settingOp, held, if_neg e]
    · simp only [List.map_cons, explainerOp, held, if_neg e]
    · exact hkeep _ s

/-- C65, refuted: `ClearContext` does change something besides the context.  The explainer
set for a scope is lost. -/
theorem C65_clear_context_refuted : ∃ (b : Builtin) (h : List (Op Nat)) (s : Nat),
    (run b h).explainerOf s ≠ (run b (.clearContext s :: h)).explainerOf s :=
  ⟨⟨[], [], []⟩, [.enableExplain 0, .setExplainer 0 (some 1), .newRoot], 0, by decide⟩

/-- C65, refuted: an object that implements several protocols is not used for all of them. -/
theorem C65_all_protocols_refuted : ∃ (b : Builtin) (i : Impl) (p : Proto), p ∈ i.sat ∧
    i ∉ (run b ([.addImpls 0 [i], .newRoot] : List (Op Nat))).impls 0 p :=
  ⟨⟨[], [], []⟩, ⟨0, [.bool, .iterate]⟩, .iterate, by decide, by decide⟩

/-- C65. An object is used for the first of the protocols it implements, in the order of
the type switch. -/
theorem C65_first_protocol (i : Impl) (p : Proto) (h : i.proto = some p) :
    p ∈ i.sat ∧ ∀ q, Proto.all.idxOf q < Proto.all.idxOf p → q ∉ i.sat := by
  unfold Impl.proto at h
  have h1 := List.find?_some h
  simp only [decide_eq_true_eq] at h1
  refine ⟨h1, fun q hq hs => ?_⟩
  rw [List.find?_eq_some_iff_append] at h
  obtain ⟨_, as, bs, e, hn⟩ := h
  have hqa : q ∈ as := by
    have hnd : Proto.all.Nodup := by decide
    have hp : Proto.all.idxOf p = as.length := by
      rw [e] at hnd ⊢
      rw [List.idxOf_append]
      have : p ∉ as := by
        intro hpa
        exact (List.nodup_append.1 hnd).2.2 p hpa p (List.mem_cons_self ..) rfl
      simp [this]
    rw [hp] at hq
    have hlt : Proto.all.idxOf q < Proto.all.length := by
      rw [e, List.length_append]; rw [e] at hq; omega
    have hq2 := List.getElem_idxOf hlt
    have hq3 : Proto.all[Proto.all.idxOf q]? = some q := by rw [List.getElem?_eq_getElem hlt, hq2]
    generalize Proto.all.idxOf q = n at hq hq3
    rw [e, List.getElem?_append_left hq] at hq3
    exact List.mem_of_getElem? hq3
  have := hn q hqa
  simp [hs] at this

/-- The calls in the examples: a root scope, a function registered in it, a copy, a new
scope, an operator in the copy, a function in the new scope. -/
def regDemo : List (Op Nat) :=
  [.appendFunctions 2 [(bs "f", ⟨8, 2⟩)], .addImpls 1 [⟨5, [.add]⟩], .setContext 1 (bs "k") 7,
   .newScope 0, .copy 0, .appendFunctions 0 [(bs "f", ⟨7, 1⟩)], .newRoot]

example : (run ⟨[], [], []⟩ regDemo).getFunction 0 (bs "f") = some ⟨7, 1⟩ ∧
    (run ⟨[], [], []⟩ regDemo).getFunction 1 (bs "f") = some ⟨7, 1⟩ ∧
    (run ⟨[], [], []⟩ regDemo).getFunction 2 (bs "f") = some ⟨8, 2⟩ ∧
    (run ⟨[], [], []⟩ regDemo).impls 0 .add = [⟨5, [.add]⟩] ∧
    (run ⟨[], [], []⟩ regDemo).impls 2 .add = [] ∧
    (run ⟨[], [], []⟩ regDemo).getContext 0 (bs "k") = some 7 ∧
    (run ⟨[], [], []⟩ regDemo).getContext 2 (bs "k") = none := by decide

/-! ### Similar plugins -/

theorem mem_similarPart (part : Str) (keys : List Str) : ∀ (acc : List Str) (x : Str),
    x ∈ similarPart part acc keys ↔ x ∈ acc ∨ (x ∈ keys ∧ strContains x part = true) := by
  induction keys with
  | nil => intro acc x; simp [similarPart]
  | cons k keys ih =>
    intro acc x
    show x ∈ similarPart part _ keys ↔ _
    rw [ih]
    by_cases h1 : strContains k part = true
    · by_cases h2 : inString acc k = true
      · have hk : k ∈ acc := by
          simp only [inString, List.any_eq_true, decide_eq_true_eq] at h2
          obtain ⟨y, hy, rfl⟩ := h2; exact hy
        simp only [h1, h2, Bool.not_true, Bool.and_false, Bool.false_eq_true, if_false, List.mem_cons]
        constructor
        · rintro (h | ⟨h, h'⟩)
          · exact .inl h
          · exact .inr ⟨.inr h, h'⟩
        · rintro (h | ⟨rfl | h, h'⟩)
          · exact .inl h
          · exact .inl hk
          · exact .inr ⟨h, h'⟩
      · simp only [h1, h2, Bool.not_false, Bool.and_true, if_true, List.mem_append, List.mem_singleton, List.mem_cons, List.not_mem_nil, or_false]
        constructor
        · rintro ((h | rfl) | ⟨h, h'⟩)
          · exact .inl h
          · exact .inr ⟨.inl rfl, h1⟩
          · exact .inr ⟨.inr h, h'⟩
        · rintro (h | ⟨rfl | h, h'⟩)
          · exact .inl (.inl h)
          · exact .inl (.inr rfl)
          · exact .inr ⟨h, h'⟩
    · simp only [h1, Bool.false_and, Bool.false_eq_true, if_false, List.mem_cons]
      constructor
      · rintro (h | ⟨h, h'⟩)
        · exact .inl h
        · exact .inr ⟨.inr h, h'⟩
      · rintro (h | ⟨rfl | h, h'⟩)
        · exact .inl h
        · exact absurd h' h1
        · exact .inr ⟨h, h'⟩

theorem nodup_similarPart (part : Str) (keys : List Str) : ∀ acc : List Str, acc.Nodup →
    (similarPart part acc keys).Nodup := by
  induction keys with
  | nil => intro acc h; exact h
  | cons k keys ih =>
    intro acc h
    show (similarPart part _ keys).Nodup
    apply ih
    dsimp only
    split
    · rename_i h1
      simp only [Bool.and_eq_true, Bool.not_eq_true'] at h1
      have hk : k ∉ acc := by
        intro hk
        have : inString acc k = true := by
          simp only [inString, List.any_eq_true, decide_eq_true_eq]; exact ⟨k, hk, rfl⟩
        rw [this] at h1; exact absurd h1.2 (by simp)
      rw [List.nodup_append]
      refine ⟨h, by simp, ?_⟩
      intro a ha b hb
      simp only [List.mem_singleton] at hb
      rw [hb]; intro e; rw [e] at ha; exact hk ha
    · exact h

theorem mem_insertStr (k : Str) (l : List Str) (x : Str) : x ∈ insertStr k l ↔ x = k ∨ x ∈ l := by
  induction l with
  | nil => simp [insertStr]
  | cons y l ih =>
    simp only [insertStr]
    split
    · simp
    · simp only [List.mem_cons, ih]
      constructor
      · rintro (h | h | h) <;> simp [h]
      · rintro (h | h | h) <;> simp [h]

theorem mem_sortStrings (l : List Str) (x : Str) : x ∈ sortStrings l ↔ x ∈ l := by
  induction l with
  | nil => rfl
  | cons y l ih =>
    show x ∈ insertStr y (sortStrings l) ↔ _
    rw [mem_insertStr, ih]; simp

theorem sorted_insertStr (k : Str) (l : List Str) (hk : k ∉ l)
    (h : l.Pairwise (fun a b => strLt a b = true)) :
    (insertStr k l).Pairwise (fun a b => strLt a b = true) := by
  induction l with
  | nil => simp [insertStr]
  | cons y l ih =>
    obtain ⟨h1, h2⟩ := List.pairwise_cons.1 h
    simp only [insertStr]
    split
    · rename_i hlt
      refine List.pairwise_cons.2 ⟨fun z hz => ?_, h⟩
      rcases List.mem_cons.1 hz with rfl | hz
      · exact hlt
      · exact strLt_trans _ _ _ hlt (h1 z hz)
    · rename_i hlt
      refine List.pairwise_cons.2 ⟨fun z hz => ?_, ih (fun e => hk (List.mem_cons_of_mem _ e)) h2⟩
      rcases (mem_insertStr k l z).1 hz with rfl | hz
      · rcases strLt_total y z with h3 | h3 | h3
        · exact h3
        · exact absurd (by rw [h3]; exact List.mem_cons_self ..) hk
        · exact absurd h3 hlt
      · exact h1 z hz

theorem sorted_sortStrings (l : List Str) (h : l.Nodup) :
    (sortStrings l).Pairwise (fun a b => strLt a b = true) := by
  induction l with
  | nil => exact List.Pairwise.nil
  | cons y l ih =>
    obtain ⟨h1, h2⟩ := List.nodup_cons.1 h
    exact sorted_insertStr y _ (fun e => h1 ((mem_sortStrings l y).1 e)) (ih h2)

theorem similar_fold : ∀ (pos : List (Str × List Str)) (acc : List Str), acc.Nodup →
    (pos.foldl (fun acc po => similarPart po.1 acc po.2) acc).Nodup ∧
    ∀ x, x ∈ pos.foldl (fun acc po => similarPart po.1 acc po.2) acc ↔
      x ∈ acc ∨ ∃ po ∈ pos, x ∈ po.2 ∧ strContains x po.1 = true := by
  intro pos
  induction pos with
  | nil => intro acc h; exact ⟨h, fun x => by simp⟩
  | cons po pos ih =>
    intro acc h
    obtain ⟨i1, i2⟩ := ih _ (nodup_similarPart po.1 po.2 acc h)
    refine ⟨i1, fun x => ?_⟩
    rw [List.foldl_cons, i2, mem_similarPart]
    constructor
    · rintro ((h | h) | ⟨q, h1, h2⟩)
      · exact .inl h
      · exact .inr ⟨po, List.mem_cons_self .., h⟩
      · exact .inr ⟨q, List.mem_cons_of_mem _ h1, h2⟩
    · rintro (h | ⟨q, h1, h2⟩)
      · exact .inl (.inl h)
      · rcases List.mem_cons.1 h1 with rfl | h1
        · exact .inl (.inr h2)
        · exact .inr ⟨q, h1, h2⟩

theorem contains_infix (hay needle : Str) : strContains hay needle = true ↔ needle <:+: hay := by
  induction hay with
  | nil => simp [strContains]
  | cons h t ih =>
    simp only [strContains, Bool.or_eq_true, List.isPrefixOf_iff_prefix, ih, List.infix_cons_iff]

/-- C66. `GetSimilarPlugins(name)` suggests, in alphabetical order and each once, exactly the
plugins whose name contains one of the parts of `name` between underscores. -/
theorem C66_similar (name : Str) (keys : List Str) (orders : List (List Str))
    (hlen : orders.length = (splitBy (bs "_") name).length) (hord : ∀ o ∈ orders, ∀ k, k ∈ o ↔ k ∈ keys) :
    (similarPlugins name orders).Pairwise (fun a b => strLt a b = true) ∧
    ∀ k, k ∈ similarPlugins name orders ↔ k ∈ keys ∧ ∃ part ∈ splitBy (bs "_") name, part <:+: k := by
  obtain ⟨h1, h2⟩ := similar_fold ((splitBy (bs "_") name).zip orders) [] List.nodup_nil
  refine ⟨sorted_sortStrings _ h1, fun k => ?_⟩
  unfold similarPlugins
  rw [mem_sortStrings, h2]
  constructor
  · rintro (h | ⟨po, h3, h4, h5⟩)
    · cases h
    · have := List.of_mem_zip h3
      exact ⟨(hord _ this.2 k).1 h4, po.1, this.1, (contains_infix _ _).1 h5⟩
  · rintro ⟨h3, part, h4, h5⟩
    right
    obtain ⟨i, hi, rfl⟩ := List.getElem_of_mem h4
    have hi' : i < orders.length := by omega
    refine ⟨((splitBy (bs "_") name)[i], orders[i]), ?_, (hord _ (List.getElem_mem hi') k).2 h3, (contains_infix _ _).2 h5⟩
    rw [List.mem_iff_getElem]
    exact ⟨i, by simp; omega, by simp⟩

/-- C66. The order in which Go ranges over the plugins does not matter. -/
theorem C66_similar_deterministic (name : Str) (keys : List Str) (o1 o2 : List (List Str))
    (h1 : o1.length = (splitBy (bs "_") name).length) (h2 : o2.length = (splitBy (bs "_") name).length)
    (k1 : ∀ o ∈ o1, ∀ k, k ∈ o ↔ k ∈ keys) (k2 : ∀ o ∈ o2, ∀ k, k ∈ o ↔ k ∈ keys) :
    similarPlugins name o1 = similarPlugins name o2 := by
  obtain ⟨a1, a2⟩ := C66_similar name keys o1 h1 k1
  obtain ⟨b1, b2⟩ := C66_similar name keys o2 h2 k2
  have heq : ∀ l l' : List Str, l.Pairwise (fun a b => strLt a b = true) →
      l'.Pairwise (fun a b => strLt a b = true) → (∀ k, k ∈ l ↔ k ∈ l') → l = l' := by
    intro l
    induction l with
    | nil =>
      intro l' _ _ h
      cases l' with
      | nil => rfl
      | cons y l' => exact absurd ((h y).2 (List.mem_cons_self ..)) (by simp)
    | cons x l ih =>
      intro l' p1 p2 h
      cases l' with
      | nil => exact absurd ((h x).1 (List.mem_cons_self ..)) (by simp)
      | cons y l' =>
        obtain ⟨q1, q2⟩ := List.pairwise_cons.1 p1
        obtain ⟨r1, r2⟩ := List.pairwise_cons.1 p2
        have irr : ∀ a : Str, ¬ strLt a a = true := fun a e => by rw [strLt_irrefl] at e; cases e
        have exy : x = y := by
          rcases List.mem_cons.1 ((h x).1 (List.mem_cons_self ..)) with e | e
          · exact e
          · rcases List.mem_cons.1 ((h y).2 (List.mem_cons_self ..)) with e' | e'
            · exact e'.symm
            · exact absurd (strLt_trans _ _ _ (r1 x e) (q1 y e')) (irr y)
        subst exy
        congr 1
        apply ih l' q2 r2
        intro k
        constructor
        · intro hk
          rcases List.mem_cons.1 ((h k).1 (List.mem_cons_of_mem _ hk)) with e | e
          · rw [e] at hk; exact absurd (q1 x hk) (irr x)
          · exact e
        · intro hk
          rcases List.mem_cons.1 ((h k).2 (List.mem_cons_of_mem _ hk)) with e | e
          · rw [e] at hk; exact absurd (r1 x hk) (irr x)
          · exact e
  exact heq _ _ a1 b1 (fun k => by rw [a2, b2])

example : similarPlugins (bs "read_info") [[bs "pslist", bs "info", bs "read_file"], [bs "info", bs "read_file", bs "pslist"]]
    = [bs "info", bs "read_file"] := by decide +kernel

/-! ### version() -/

/-- C67. `version(plugin=p)` is the version of the plugin of that name most recently
registered with the scope and NULL if there is none, `version(function=f)` the same for
functions; `plugin` prevails. -/
theorem C67_version (b : Builtin) (h : List (Op V)) (s : Nat) (f p : Str) :
    (p ≠ [] → ∀ r, (held (h.map (pluginOp b)) s).bind (newest p) = some r →
      (run b h).version s f p = .version r.version) ∧
    (p ≠ [] → (held (h.map (pluginOp b)) s).bind (newest p) = none → (run b h).version s f p = .null) ∧
    (p = [] → f ≠ [] → ∀ r, (held (h.map (fnOp b)) s).bind (newest f) = some r →
      (run b h).version s f p = .version r.version) ∧
    (p = [] → f ≠ [] → (held (h.map (fnOp b)) s).bind (newest f) = none → (run b h).version s f p = .null) ∧
    (p = [] → f = [] → (run b h).version s f p = .zero) := by
  simp only [← C65_functions, ← C65_plugins]
  unfold Heap.version
  refine ⟨fun hp r e => ?_, fun hp e => ?_, fun hp hf r e => ?_, fun hp hf e => ?_, fun hp hf => ?_⟩
  · rw [if_pos hp, e]
  · rw [if_pos hp, e]
  · rw [if_neg (fun x => x hp), if_pos hf, e]
  · rw [if_neg (fun x => x hp), if_pos hf, e]
  · rw [if_neg (fun x => x hp), if_neg (fun x => x hf)]

example : (run ⟨[], [], []⟩ regDemo).version 2 (bs "f") [] = .version 2 ∧
    (run ⟨[], [], []⟩ regDemo).version 1 (bs "f") [] = .version 1 ∧
    (run ⟨[], [], []⟩ regDemo).version 1 (bs "g") [] = .null := by decide

end
end Vfilter.Disp
