import Verif.AggConc
import Verif.Props.Aggregates
/-!
# C81 Aggregate functions called by several goroutines
-/
set_option linter.all false

namespace Vfilter.AggConc
variable {F X : Type} [LawfulFloat F] {W : World F X}

theorem run_append : ∀ (as bs : List (Act F X)) (σ : ASt F X), run W σ (as ++ bs) = (run W σ as).bind (fun τ => run W τ bs)
  | [], bs, σ => rfl
  | a :: as, bs, σ => by
    simp only [List.cons_append, run]
    cases step W σ a with
    | none => rfl
    | some τ => exact run_append as bs τ

theorem run_inv {P : ASt F X → Prop} (hs : ∀ σ a σ', P σ → step W σ a = some σ' → P σ') :
    ∀ (as : List (Act F X)) (σ σ' : ASt F X), P σ → run W σ as = some σ' → P σ'
  | [], σ, σ', hp, h => by cases h; exact hp
  | a :: as, σ, σ', hp, h => by
    simp only [run] at h
    cases h1 : step W σ a with
    | none => rw [h1] at h; cases h
    | some τ => rw [h1] at h; exact run_inv hs as τ σ' (hs σ a τ hp h1) h

theorem reach_inv {P : ASt F X → Prop} (h0 : P .init) (hs : ∀ σ a σ', P σ → step W σ a = some σ' → P σ') {σ : ASt F X}
    (h : Reach W σ) : P σ := by
  obtain ⟨as, h⟩ := h
  exact run_inv hs as _ _ h0 h

/-! ## What a step does -/

inductive Eff (W : World F X) (σ : ASt F X) : ASt F X → Prop where
  | scopes {l} : Eff W σ { σ with scopes := l }
  | fresh {l} : Eff W σ { σ with scopes := l, ctxs := σ.ctxs ++ [[]] }
  | begin {n s op} : Eff W σ { σ with calls := σ.calls ++ [.start n s op] }
  | found {i n s op id} (h : σ.calls[i]? = some (.start n s op)) (hf : σ.fns n = some id) :
      Eff W σ { σ with calls := σ.calls.set i (.call n s op id) }
  | missing {i n s op} (h : σ.calls[i]? = some (.start n s op)) (hf : σ.fns n = none) :
      Eff W σ { σ with calls := σ.calls.set i (.copy n s op) }
  | copy {i n s op} (h : σ.calls[i]? = some (.copy n s op)) :
      Eff W σ { σ with calls := σ.calls.set i (.store n s op (σ.last + 1)), last := σ.last + 1 }
  | store {i n s op id} (h : σ.calls[i]? = some (.store n s op id)) :
      Eff W σ { σ with calls := σ.calls.set i (.call n s op id), fns := fun k => if k = n then some id else σ.fns k }
  | call {i n s op id l cs c} (h : σ.calls[i]? = some (.call n s op id)) (hc : cs = [] ∨ cs = [[]]) :
      Eff W σ { σ with scopes := l, ctxs := σ.ctxs ++ cs, calls := σ.calls.set i (.modify n s op id c) }
  | modify {i n s op id c} (h : σ.calls[i]? = some (.modify n s op id c)) :
      Eff W σ { σ with ctxs := σ.ctxs.set c (aggCall W (σ.ctxs.getD c []) (instId id) op).1
                       calls := σ.calls.eraseIdx i
                       log := σ.log ++ [⟨n, s, c, id, op, (aggCall W (σ.ctxs.getD c []) (instId id) op).2⟩] }

theorem getCtx_eff (σ : ASt F X) (s : Nat) : ∃ l cs, (cs = [] ∨ cs = [[]]) ∧
    (getCtx σ s).1 = { σ with scopes := l, ctxs := σ.ctxs ++ cs } := by
  unfold getCtx
  split
  · exact ⟨σ.scopes, [], .inl rfl, by simp⟩
  · exact ⟨_, [[]], .inr rfl, rfl⟩

theorem step_eff {σ σ' : ASt F X} {a : Act F X} (h : step W σ a = some σ') : Eff W σ σ' := by
  cases a with
  | root => cases h; exact .scopes
  | copyScope s =>
    simp only [step] at h
    split at h
    · cases h; exact .scopes
    · cases h
  | fresh s =>
    simp only [step] at h
    split at h
    · cases h; exact .fresh
    · cases h
  | «begin» n s op =>
    simp only [step] at h
    split at h
    · cases h; exact .begin
    · cases h
  | step i =>
    simp only [step] at h
    split at h
    next c hc =>
      cases h
      cases c with
      | start n s op =>
        simp only [advance]
        split
        next id hf => exact .found hc hf
        next hf => exact .missing hc hf
      | copy n s op => exact .copy hc
      | store n s op id => exact .store hc
      | call n s op id =>
        obtain ⟨l, cs, h1, h2⟩ := getCtx_eff σ s
        simp only [advance]
        rw [h2]
        exact .call hc h1
      | modify n s op id c => exact .modify hc
    next => cases h

theorem eff_inv {P : ASt F X → Prop} (h0 : P .init) (hs : ∀ σ σ', P σ → Eff W σ σ' → P σ') {σ : ASt F X} (h : Reach W σ) : P σ :=
  reach_inv h0 (fun σ a σ' hp h => hs σ σ' hp (step_eff h)) h

theorem mem_set' {α : Type} {l : List α} {i : Nat} {x y : α} (h : x ∈ l.set i y) : x ∈ l ∨ x = y :=
  List.mem_or_eq_of_mem_set h

/-! ## The calls of a context happen one after the other -/

/-- The calls that returned, of one context. -/
def callsAt (c : Nat) (l : List (Done F X)) : List (Done F X) := l.filter (fun d => decide (d.ctx = c))

def asCall (d : Done F X) : Str × AggOp F X := (instId d.id, d.op)
def asResult (d : Done F X) : Str × Cell F X := (instId d.id, d.result)

structure Serial (W : World F X) (σ : ASt F X) : Prop where
  ctx : ∀ c, σ.ctxs.getD c [] = aggSt W [] ((callsAt c σ.log).map asCall)
  res : ∀ c, (callsAt c σ.log).map asResult = aggRun W [] ((callsAt c σ.log).map asCall)
  bound : ∀ n s op id c, Call.modify n s op id c ∈ σ.calls → c < σ.ctxs.length

theorem getCtx_lt {σ : ASt F X} (hb : ∀ (k : Nat) (x : ASc) (c : Nat), σ.scopes[k]? = some x → x.ctx = some c → c < σ.ctxs.length) (s : Nat) :
    (getCtx σ s).2 < (getCtx σ s).1.ctxs.length := by
  unfold getCtx
  split
  next p c h => exact hb _ _ c h rfl
  next => simp

/-- The contexts scopes have exist. -/
def CtxOK (σ : ASt F X) : Prop :=
  ∀ (k : Nat) (x : ASc) (c : Nat), σ.scopes[k]? = some x → x.ctx = some c → c < σ.ctxs.length

theorem ctxOK_modify {σ : ASt F X} (h : CtxOK σ) (s : Nat) (k : Nat) (x : ASc) (c : Nat)
    (hx : (σ.scopes.modify s (fun x => { x with ctx := some σ.ctxs.length }))[k]? = some x) (hc : x.ctx = some c) :
    c < (σ.ctxs ++ [[]]).length := by
  rw [List.getElem?_modify] at hx
  rw [List.length_append, List.length_singleton]
  cases e : σ.scopes[k]? with
  | none => rw [e] at hx; cases hx
  | some y =>
    rw [e] at hx
    by_cases ek : s = k
    · simp [ek] at hx
      subst hx
      simp only [Option.some.injEq] at hc
      omega
    · simp [ek] at hx
      subst hx
      have := h k y c e hc
      omega

theorem ctxOK_push {σ : ASt F X} (h : CtxOK σ) (p : Option Nat) (k : Nat) (x : ASc) (c : Nat)
    (hx : (σ.scopes ++ [⟨p, none⟩])[k]? = some x) (hc : x.ctx = some c) : c < σ.ctxs.length := by
  rw [List.getElem?_append] at hx
  split at hx
  · exact h k x c hx hc
  · have := List.mem_of_getElem? hx
    rw [List.mem_singleton] at this
    subst this
    cases hc

theorem ctxOK_getCtx {σ : ASt F X} (h : CtxOK σ) (s : Nat) : CtxOK (getCtx σ s).1 := by
  unfold getCtx
  split
  · exact h
  · exact fun k x c hx hc => ctxOK_modify h _ k x c hx hc

theorem ctxOK_step (σ : ASt F X) (a : Act F X) (σ' : ASt F X) (h : CtxOK σ) (hs : step W σ a = some σ') : CtxOK σ' := by
  cases a with
  | root => cases hs; exact fun k x c hx hc => ctxOK_push h _ k x c hx hc
  | copyScope s =>
    simp only [step] at hs
    split at hs
    · cases hs; exact fun k x c hx hc => ctxOK_push h _ k x c hx hc
    · cases hs
  | fresh s =>
    simp only [step] at hs
    split at hs
    · cases hs; exact fun k x c hx hc => ctxOK_modify h _ k x c hx hc
    · cases hs
  | «begin» n s op =>
    simp only [step] at hs
    split at hs
    · cases hs; exact h
    · cases hs
  | step i =>
    simp only [step] at hs
    split at hs
    next c hc =>
      cases hs
      cases c with
      | start n s op => simp only [advance]; split <;> exact h
      | copy n s op => exact h
      | store n s op id => exact h
      | call n s op id => exact ctxOK_getCtx h s
      | modify n s op id c =>
        intro k x c' hx hc'
        simp only [advance, List.length_set]
        exact h k x c' hx hc'
    next => cases hs

theorem reach_ctxOK {σ : ASt F X} (h : Reach W σ) : CtxOK σ :=
  reach_inv (by intro k x c hx; simp [ASt.init] at hx) ctxOK_step h

theorem getD_push (l : List (AggCtx F X)) (c : Nat) : (l ++ [[]]).getD c [] = l.getD c [] := by
  simp only [List.getD_eq_getElem?_getD, List.getElem?_append]
  split
  · rfl
  next h =>
    rw [List.getElem?_eq_none (by omega : l.length ≤ c)]
    cases e : ([[]] : List (AggCtx F X))[c - l.length]? with
    | none => rfl
    | some y =>
      have := List.mem_of_getElem? e
      rw [List.mem_singleton] at this
      subst this; rfl

theorem callsAt_push (c : Nat) (l : List (Done F X)) (d : Done F X) :
    callsAt c (l ++ [d]) = if d.ctx = c then callsAt c l ++ [d] else callsAt c l := by
  unfold callsAt
  rw [List.filter_append]
  by_cases h : d.ctx = c <;> simp [h]

theorem serial_same {σ σ' : ASt F X} (h : Serial W σ) (hl : σ'.log = σ.log) (hc : ∀ c, σ'.ctxs.getD c [] = σ.ctxs.getD c [])
    (hb : ∀ n s op id c, Call.modify n s op id c ∈ σ'.calls → c < σ'.ctxs.length) : Serial W σ' :=
  ⟨fun c => by rw [hc, hl]; exact h.ctx c, fun c => by rw [hl]; exact h.res c, hb⟩

theorem serial_step (σ : ASt F X) (a : Act F X) (σ' : ASt F X) (hk : CtxOK σ) (h : Serial W σ) (hs : step W σ a = some σ') : Serial W σ' := by
  cases a with
  | root => cases hs; exact serial_same h rfl (fun _ => rfl) h.bound
  | copyScope s =>
    simp only [step] at hs
    split at hs
    · cases hs; exact serial_same h rfl (fun _ => rfl) h.bound
    · cases hs
  | fresh s =>
    simp only [step] at hs
    split at hs
    · cases hs
      exact serial_same h rfl (fun c => getD_push _ c) (fun n s op id c hm => by
        have := h.bound n s op id c hm; simp only [List.length_append, List.length_singleton]; omega)
    · cases hs
  | «begin» n s op =>
    simp only [step] at hs
    split at hs
    · cases hs; exact serial_same h rfl (fun _ => rfl) (fun n s op id c hm => h.bound n s op id c (by simpa using hm))
    · cases hs
  | step i =>
    simp only [step] at hs
    split at hs
    next c hc =>
      cases hs
      cases c with
      | start n s op =>
        simp only [advance]
        split <;> exact serial_same h rfl (fun _ => rfl)
          (fun n s op id c hm => h.bound n s op id c ((mem_set' hm).resolve_right (by simp)))
      | copy n s op =>
        exact serial_same h rfl (fun _ => rfl) (fun n s op id c hm => h.bound n s op id c ((mem_set' hm).resolve_right (by simp)))
      | store n s op id =>
        exact serial_same h rfl (fun _ => rfl) (fun n s op id c hm => h.bound n s op id c ((mem_set' hm).resolve_right (by simp)))
      | call n s op id =>
        have hlt := getCtx_lt hk s
        obtain ⟨l, cs, h1, h2⟩ := getCtx_eff σ s
        have hcs : (getCtx σ s).1.ctxs = σ.ctxs ++ cs := by rw [h2]
        have hlog : (getCtx σ s).1.log = σ.log := by rw [h2]
        refine serial_same h hlog (fun c => ?_) (fun n s op id c hm => ?_)
        · show (getCtx σ s).1.ctxs.getD c [] = _
          rw [hcs]
          rcases h1 with rfl | rfl
          · rw [List.append_nil]
          · exact getD_push _ c
        · show c < (getCtx σ _).1.ctxs.length
          rcases mem_set' hm with hm | hm
          · have := h.bound _ _ _ _ _ hm
            rw [hcs, List.length_append]; omega
          · cases hm; exact hlt
      | modify n s op id c =>
        have hlt := h.bound n s op id c (List.mem_of_getElem? hc)
        have hcx := h.ctx c
        simp only [advance]
        refine ⟨fun c' => ?_, fun c' => ?_, fun n s op id c' hm => ?_⟩
        · rw [callsAt_push]
          simp only
          by_cases e : c = c'
          · subst e
            rw [if_pos rfl, List.map_append, aggSt_append, ← hcx]
            simp [List.getD_eq_getElem?_getD, List.getElem?_set, hlt, aggSt, asCall]
          · rw [if_neg e, ← h.ctx c']
            simp [List.getD_eq_getElem?_getD, List.getElem?_set, e]
        · rw [callsAt_push]
          simp only
          by_cases e : c = c'
          · subst e
            rw [if_pos rfl, List.map_append, List.map_append, aggRun_append, h.res c, ← hcx]
            simp [aggRun, asCall, asResult]
          · rw [if_neg e]; exact h.res c'
        · rw [List.length_set]
          exact h.bound n s op id c' (List.mem_of_mem_eraseIdx hm)
    next => cases hs

theorem reach_serial {σ : ASt F X} (h : Reach W σ) : Serial W σ := by
  refine (reach_inv (P := fun σ => CtxOK σ ∧ Serial W σ) ⟨?_, ?_⟩ ?_ h).2
  · intro k x c hx; simp [ASt.init] at hx
  · exact ⟨fun c => by simp [ASt.init, callsAt, aggSt], fun c => by simp [ASt.init, callsAt, aggRun],
      fun n s op id c hm => by simp [ASt.init] at hm⟩
  · rintro σ a σ' ⟨h1, h2⟩ hs
    exact ⟨ctxOK_step σ a σ' h1 hs, serial_step σ a σ' h1 h2 hs⟩

/-- **C81** Whatever goroutines call aggregate functions at the same time, the results of the calls of each
context are those of the same calls made one after the other, on a context that was empty. -/
theorem C81_serial {σ : ASt F X} (h : Reach W σ) (c : Nat) :
    (callsAt c σ.log).map asResult = aggRun W [] ((callsAt c σ.log).map asCall) := (reach_serial h).res c

/-! ## Instances belong to call sites -/

/-- The call site uses the instance. -/
def Uses (σ : ASt F X) (n id : Nat) : Prop :=
  σ.fns n = some id ∨ (∃ s op, .store n s op id ∈ σ.calls) ∨ (∃ s op, .call n s op id ∈ σ.calls) ∨
  (∃ s op c, .modify n s op id c ∈ σ.calls) ∨ ∃ d ∈ σ.log, d.node = n ∧ d.id = id

theorem uses_step {σ σ' : ASt F X} (h : Eff W σ σ') :
    (σ'.last = σ.last ∧ ∀ n id, Uses σ' n id → Uses σ n id) ∨
    (σ'.last = σ.last + 1 ∧ ∃ m, ∀ n id, Uses σ' n id → Uses σ n id ∨ (n = m ∧ id = σ.last + 1)) := by
  cases h with
  | scopes => exact .inl ⟨rfl, fun _ _ h => h⟩
  | fresh => exact .inl ⟨rfl, fun _ _ h => h⟩
  | «begin» => exact .inl ⟨rfl, fun n id h => by simpa [Uses] using h⟩
  | @found i m s op id' h hf =>
    refine .inl ⟨rfl, fun n id hu => ?_⟩
    rcases hu with hu | ⟨s', op', hm⟩ | ⟨s', op', hm⟩ | ⟨s', op', c, hm⟩ | hu
    · exact .inl hu
    · exact .inr (.inl ⟨s', op', (mem_set' hm).resolve_right (by simp)⟩)
    · rcases mem_set' hm with hm | hm
      · exact .inr (.inr (.inl ⟨s', op', hm⟩))
      · cases hm; exact .inl hf
    · exact .inr (.inr (.inr (.inl ⟨s', op', c, (mem_set' hm).resolve_right (by simp)⟩)))
    · exact .inr (.inr (.inr (.inr hu)))
  | missing h hf =>
    refine .inl ⟨rfl, fun n id hu => ?_⟩
    rcases hu with hu | ⟨s', op', hm⟩ | ⟨s', op', hm⟩ | ⟨s', op', c, hm⟩ | hu
    · exact .inl hu
    · exact .inr (.inl ⟨s', op', (mem_set' hm).resolve_right (by simp)⟩)
    · exact .inr (.inr (.inl ⟨s', op', (mem_set' hm).resolve_right (by simp)⟩))
    · exact .inr (.inr (.inr (.inl ⟨s', op', c, (mem_set' hm).resolve_right (by simp)⟩)))
    · exact .inr (.inr (.inr (.inr hu)))
  | @copy i m s op h =>
    refine .inr ⟨rfl, m, fun n id hu => ?_⟩
    rcases hu with hu | ⟨s', op', hm⟩ | ⟨s', op', hm⟩ | ⟨s', op', c, hm⟩ | hu
    · exact .inl (.inl hu)
    · rcases mem_set' hm with hm | hm
      · exact .inl (.inr (.inl ⟨s', op', hm⟩))
      · cases hm; exact .inr ⟨rfl, rfl⟩
    · exact .inl (.inr (.inr (.inl ⟨s', op', (mem_set' hm).resolve_right (by simp)⟩)))
    · exact .inl (.inr (.inr (.inr (.inl ⟨s', op', c, (mem_set' hm).resolve_right (by simp)⟩))))
    · exact .inl (.inr (.inr (.inr (.inr hu))))
  | @store i m s op id' h =>
    have h' := List.mem_of_getElem? h
    refine .inl ⟨rfl, fun n id hu => ?_⟩
    rcases hu with hu | ⟨s', op', hm⟩ | ⟨s', op', hm⟩ | ⟨s', op', c, hm⟩ | hu
    · simp only at hu
      split at hu
      next e => cases hu; subst e; exact .inr (.inl ⟨s, op, h'⟩)
      next => exact .inl hu
    · exact .inr (.inl ⟨s', op', (mem_set' hm).resolve_right (by simp)⟩)
    · rcases mem_set' hm with hm | hm
      · exact .inr (.inr (.inl ⟨s', op', hm⟩))
      · cases hm; exact .inr (.inl ⟨s, op, h'⟩)
    · exact .inr (.inr (.inr (.inl ⟨s', op', c, (mem_set' hm).resolve_right (by simp)⟩)))
    · exact .inr (.inr (.inr (.inr hu)))
  | @call i m s op id' l cs c h hc =>
    have h' := List.mem_of_getElem? h
    refine .inl ⟨rfl, fun n id hu => ?_⟩
    rcases hu with hu | ⟨s', op', hm⟩ | ⟨s', op', hm⟩ | ⟨s', op', c, hm⟩ | hu
    · exact .inl hu
    · exact .inr (.inl ⟨s', op', (mem_set' hm).resolve_right (by simp)⟩)
    · exact .inr (.inr (.inl ⟨s', op', (mem_set' hm).resolve_right (by simp)⟩))
    · rcases mem_set' hm with hm | hm
      · exact .inr (.inr (.inr (.inl ⟨s', op', c, hm⟩)))
      · cases hm; exact .inr (.inr (.inl ⟨s, op, h'⟩))
    · exact .inr (.inr (.inr (.inr hu)))
  | @modify i m s op id' c h =>
    have h' := List.mem_of_getElem? h
    refine .inl ⟨rfl, fun n id hu => ?_⟩
    rcases hu with hu | ⟨s', op', hm⟩ | ⟨s', op', hm⟩ | ⟨s', op', c', hm⟩ | ⟨d, hd, h1, h2⟩
    · exact .inl hu
    · exact .inr (.inl ⟨s', op', List.mem_of_mem_eraseIdx hm⟩)
    · exact .inr (.inr (.inl ⟨s', op', List.mem_of_mem_eraseIdx hm⟩))
    · exact .inr (.inr (.inr (.inl ⟨s', op', c', List.mem_of_mem_eraseIdx hm⟩)))
    · rcases List.mem_append.1 hd with hd | hd
      · exact .inr (.inr (.inr (.inr ⟨d, hd, h1, h2⟩)))
      · rw [List.mem_singleton] at hd
        subst hd
        cases h1; cases h2
        exact .inr (.inr (.inr (.inl ⟨s, op, c, h'⟩)))

theorem uses_inv {σ : ASt F X} (h : Reach W σ) :
    (∀ n id, Uses σ n id → id ≤ σ.last) ∧ ∀ n m id, Uses σ n id → Uses σ m id → n = m := by
  refine eff_inv (P := fun σ => (∀ n id, Uses σ n id → id ≤ σ.last) ∧ ∀ n m id, Uses σ n id → Uses σ m id → n = m) ?_ ?_ h
  · refine ⟨fun n id h => ?_, fun n m id h => ?_⟩ <;> simp [Uses, ASt.init] at h
  · rintro σ σ' ⟨h1, h2⟩ he
    rcases uses_step he with ⟨hl, hu⟩ | ⟨hl, m, hu⟩
    · exact ⟨fun n id h => hl ▸ h1 n id (hu n id h), fun n m id h h' => h2 n m id (hu n id h) (hu m id h')⟩
    · refine ⟨fun n id h => ?_, fun n k id h h' => ?_⟩
      · rcases hu n id h with h | ⟨_, h⟩
        · have := h1 n id h; omega
        · omega
      · rcases hu n id h with h | ⟨e, h⟩ <;> rcases hu k id h' with h' | ⟨e', h'⟩
        · exact h2 n k id h h'
        · have := h1 n id h; omega
        · have := h1 k id h'; omega
        · rw [e, e']

/-- **C81** Two call sites never share an instance, so calls of one do not change the results of another. -/
theorem C81_own_instance {σ : ASt F X} (h : Reach W σ) {d e : Done F X} (hd : d ∈ σ.log) (he : e ∈ σ.log) (hi : d.id = e.id) :
    d.node = e.node :=
  (uses_inv h).2 d.node e.node d.id (.inr (.inr (.inr (.inr ⟨d, hd, rfl, rfl⟩)))) (.inr (.inr (.inr (.inr ⟨e, he, rfl, hi.symm⟩))))

/-! ## One instance for a call site -/

/-- The call site has an instance, and calls in progress use it or have yet to look. -/
structure Settled (σ : ASt F X) (n i : Nat) : Prop where
  fn : σ.fns n = some i
  noCopy : ∀ s op, .copy n s op ∉ σ.calls
  store : ∀ s op id, .store n s op id ∈ σ.calls → id = i
  call : ∀ s op id, .call n s op id ∈ σ.calls → id = i
  modify : ∀ s op id c, .modify n s op id c ∈ σ.calls → id = i
  log : ∀ d ∈ σ.log, d.node = n → d.id = i

theorem settled_step {n i : Nat} (σ σ' : ASt F X) (hp : Settled σ n i) (h : Eff W σ σ') : Settled σ' n i := by
  obtain ⟨h1, h2, h3, h4, h5, h6⟩ := hp
  cases h with
  | scopes => exact ⟨h1, h2, h3, h4, h5, h6⟩
  | fresh => exact ⟨h1, h2, h3, h4, h5, h6⟩
  | «begin» =>
    exact ⟨h1, fun s op => by simpa using h2 s op, fun s op id => by simpa using h3 s op id, fun s op id => by simpa using h4 s op id,
      fun s op id c => by simpa using h5 s op id c, h6⟩
  | @found j m s op id' h hf =>
    refine ⟨h1, fun s op hm => h2 s op ((mem_set' hm).resolve_right (by simp)), fun s op id hm => h3 s op id ((mem_set' hm).resolve_right (by simp)),
      fun s op id hm => ?_, fun s op id c hm => h5 s op id c ((mem_set' hm).resolve_right (by simp)), h6⟩
    rcases mem_set' hm with hm | hm
    · exact h4 s op id hm
    · cases hm; rw [h1] at hf; cases hf; rfl
  | @missing j m s op h hf =>
    refine ⟨h1, fun s op hm => ?_, fun s op id hm => h3 s op id ((mem_set' hm).resolve_right (by simp)),
      fun s op id hm => h4 s op id ((mem_set' hm).resolve_right (by simp)), fun s op id c hm => h5 s op id c ((mem_set' hm).resolve_right (by simp)), h6⟩
    rcases mem_set' hm with hm | hm
    · exact h2 s op hm
    · cases hm; rw [h1] at hf; cases hf
  | @copy j m s op h =>
    refine ⟨h1, fun s op hm => h2 s op ((mem_set' hm).resolve_right (by simp)), fun s op id hm => ?_,
      fun s op id hm => h4 s op id ((mem_set' hm).resolve_right (by simp)), fun s op id c hm => h5 s op id c ((mem_set' hm).resolve_right (by simp)), h6⟩
    rcases mem_set' hm with hm | hm
    · exact h3 s op id hm
    · cases hm; exact absurd (List.mem_of_getElem? h) (h2 _ _)
  | @store j m s op id' h =>
    have h' := List.mem_of_getElem? h
    refine ⟨?_, fun s op hm => h2 s op ((mem_set' hm).resolve_right (by simp)), fun s op id hm => h3 s op id ((mem_set' hm).resolve_right (by simp)),
      fun s op id hm => ?_, fun s op id c hm => h5 s op id c ((mem_set' hm).resolve_right (by simp)), h6⟩
    · simp only
      split
      next e => subst e; rw [h3 _ _ _ h']
      next => exact h1
    · rcases mem_set' hm with hm | hm
      · exact h4 s op id hm
      · cases hm; exact h3 _ _ _ h'
  | @call j m s op id' l cs c h hc =>
    have h' := List.mem_of_getElem? h
    refine ⟨h1, fun s op hm => h2 s op ((mem_set' hm).resolve_right (by simp)), fun s op id hm => h3 s op id ((mem_set' hm).resolve_right (by simp)),
      fun s op id hm => h4 s op id ((mem_set' hm).resolve_right (by simp)), fun s op id c hm => ?_, h6⟩
    rcases mem_set' hm with hm | hm
    · exact h5 s op id c hm
    · cases hm; exact h4 _ _ _ h'
  | @modify j m s op id' c h =>
    have h' := List.mem_of_getElem? h
    refine ⟨h1, fun s op hm => h2 s op (List.mem_of_mem_eraseIdx hm), fun s op id hm => h3 s op id (List.mem_of_mem_eraseIdx hm),
      fun s op id hm => h4 s op id (List.mem_of_mem_eraseIdx hm), fun s op id c hm => h5 s op id c (List.mem_of_mem_eraseIdx hm), fun d hd hn => ?_⟩
    rcases List.mem_append.1 hd with hd | hd
    · exact h6 d hd hn
    · rw [List.mem_singleton] at hd
      subst hd
      cases hn
      exact h5 _ _ _ _ h'

/-- A call with the instance is about to be made. -/
def Calling (σ : ASt F X) (n i : Nat) : Prop :=
  (∃ s op, .call n s op i ∈ σ.calls) ∨ ∃ s op c, .modify n s op i c ∈ σ.calls

/-- A call site that has called has an instance, the one of a call. -/
structure Known (σ : ASt F X) (n : Nat) : Prop where
  has : (∃ d ∈ σ.log, d.node = n) ∨ (∃ i, Calling σ n i) → σ.fns n ≠ none
  used : ∀ i, σ.fns n = some i → (∃ d ∈ σ.log, d.node = n ∧ d.id = i) ∨ Calling σ n i

theorem mem_keep {l : List (Call F X)} {i : Nat} {c d c' : Call F X} (h : l[i]? = some c) (hd : d ∈ l) (hne : d ≠ c) : d ∈ l.set i c' := by
  obtain ⟨j, hj⟩ := List.mem_iff_getElem?.1 hd
  by_cases e : i = j
  · subst e; rw [h] at hj; cases hj; exact absurd rfl hne
  · exact List.mem_iff_getElem?.2 ⟨j, by rw [List.getElem?_set, if_neg e]; exact hj⟩

theorem mem_new {l : List (Call F X)} {i : Nat} {c c' : Call F X} (h : l[i]? = some c) : c' ∈ l.set i c' := by
  have hl : i < l.length := (List.getElem?_eq_some_iff.1 h).1
  exact List.mem_iff_getElem?.2 ⟨i, by simp [List.getElem?_set, hl]⟩

theorem mem_eraseIdx' {l : List (Call F X)} {i : Nat} {c d : Call F X} (h : l[i]? = some c) (hd : d ∈ l) : d = c ∨ d ∈ l.eraseIdx i := by
  obtain ⟨j, hj⟩ := List.mem_iff_getElem?.1 hd
  by_cases e : i = j
  · subst e; rw [h] at hj; cases hj; exact .inl rfl
  · refine .inr (List.mem_iff_getElem?.2 ?_)
    rcases Nat.lt_or_gt_of_ne e with e | e
    · exact ⟨j - 1, by rw [List.getElem?_eraseIdx]; rw [if_neg (by omega)]; rw [show j - 1 + 1 = j by omega]; exact hj⟩
    · exact ⟨j, by rw [List.getElem?_eraseIdx, if_pos e]; exact hj⟩

/-- A call that has not looked for its context yet is replaced by something that has not either. -/
theorem calling_set {σ : ASt F X} {j : Nat} {c c' : Call F X} (h : σ.calls[j]? = some c) (hc : ∀ n s op i, c ≠ .call n s op i)
    (hm : ∀ n s op i k, c ≠ .modify n s op i k) {n i : Nat} (hu : Calling σ n i) :
    (∃ s op, .call n s op i ∈ σ.calls.set j c') ∨ ∃ s op k, .modify n s op i k ∈ σ.calls.set j c' := by
  rcases hu with ⟨s, op, hx⟩ | ⟨s, op, k, hx⟩
  · exact .inl ⟨s, op, mem_keep h hx (hc _ _ _ _).symm⟩
  · exact .inr ⟨s, op, k, mem_keep h hx (hm _ _ _ _ _).symm⟩

theorem calling_unset {σ : ASt F X} {j : Nat} {c' : Call F X} (hc : ∀ n s op i, c' ≠ .call n s op i)
    (hm : ∀ n s op i k, c' ≠ .modify n s op i k) {n i : Nat}
    (hu : (∃ s op, .call n s op i ∈ σ.calls.set j c') ∨ ∃ s op k, .modify n s op i k ∈ σ.calls.set j c') : Calling σ n i := by
  rcases hu with ⟨s, op, hx⟩ | ⟨s, op, k, hx⟩
  · exact .inl ⟨s, op, (mem_set' hx).resolve_right (hc _ _ _ _).symm⟩
  · exact .inr ⟨s, op, k, (mem_set' hx).resolve_right (hm _ _ _ _ _).symm⟩

theorem known_step {n : Nat} (σ σ' : ASt F X) (hp : Known σ n) (h : Eff W σ σ') : Known σ' n := by
  obtain ⟨h1, h2⟩ := hp
  cases h with
  | scopes => exact ⟨h1, h2⟩
  | fresh => exact ⟨h1, h2⟩
  | «begin» =>
    exact ⟨fun hh => h1 (by simpa [Calling] using hh), fun i hi => by simpa [Calling] using h2 i hi⟩
  | @found j m s op id' h hf =>
    refine ⟨?_, fun i hi => (h2 i hi).imp id (calling_set h (by simp) (by simp))⟩
    rintro (hh | ⟨i, ⟨s', op', hm⟩ | ⟨s', op', c, hm⟩⟩)
    · exact h1 (.inl hh)
    · rcases mem_set' hm with hm | hm
      · exact h1 (.inr ⟨_, .inl ⟨s', op', hm⟩⟩)
      · cases hm; simp only; rw [hf]; simp
    · exact h1 (.inr ⟨_, .inr ⟨s', op', c, (mem_set' hm).resolve_right (by simp)⟩⟩)
  | @missing j m s op h hf =>
    refine ⟨?_, fun i hi => (h2 i hi).imp id (calling_set h (by simp) (by simp))⟩
    rintro (hh | ⟨i, hu⟩)
    · exact h1 (.inl hh)
    · exact h1 (.inr ⟨i, calling_unset (by simp) (by simp) hu⟩)
  | @copy j m s op h =>
    refine ⟨?_, fun i hi => (h2 i hi).imp id (calling_set h (by simp) (by simp))⟩
    rintro (hh | ⟨i, hu⟩)
    · exact h1 (.inl hh)
    · exact h1 (.inr ⟨i, calling_unset (by simp) (by simp) hu⟩)
  | @store j m s op id' h =>
    constructor
    · intro hh
      simp only
      split
      · simp
      next e =>
        rcases hh with hh | ⟨i, ⟨s', op', hm⟩ | ⟨s', op', c, hm⟩⟩
        · exact h1 (.inl hh)
        · refine h1 (.inr ⟨i, .inl ⟨s', op', (mem_set' hm).resolve_right ?_⟩⟩)
          intro e'; cases e'; exact e rfl
        · exact h1 (.inr ⟨i, .inr ⟨s', op', c, (mem_set' hm).resolve_right (by simp)⟩⟩)
    · intro i hi
      simp only at hi
      split at hi
      next e =>
        cases hi
        subst e
        exact .inr (.inl ⟨s, op, mem_new h⟩)
      next e => exact (h2 i hi).imp id (calling_set h (by simp) (by simp))
  | @call j m s op id' l cs k h hc =>
    constructor
    · rintro (hh | ⟨i, ⟨s', op', hm⟩ | ⟨s', op', c, hm⟩⟩)
      · exact h1 (.inl hh)
      · exact h1 (.inr ⟨i, .inl ⟨s', op', (mem_set' hm).resolve_right (by simp)⟩⟩)
      · rcases mem_set' hm with hm | hm
        · exact h1 (.inr ⟨i, .inr ⟨s', op', c, hm⟩⟩)
        · cases hm; exact h1 (.inr ⟨_, .inl ⟨_, _, List.mem_of_getElem? h⟩⟩)
    · intro i hi
      rcases h2 i hi with hl | ⟨s', op', hx⟩ | ⟨s', op', c, hx⟩
      · exact .inl hl
      · by_cases e : Call.call n s' op' i = .call m s op id'
        · cases e; exact .inr (.inr ⟨s, op, k, mem_new h⟩)
        · exact .inr (.inl ⟨s', op', mem_keep h hx e⟩)
      · exact .inr (.inr ⟨s', op', c, mem_keep h hx (by simp)⟩)
  | @modify j m s op id' k h =>
    have h' := List.mem_of_getElem? h
    constructor
    · rintro (⟨d, hd, hn⟩ | ⟨i, ⟨s', op', hm⟩ | ⟨s', op', c, hm⟩⟩)
      · rcases List.mem_append.1 hd with hd | hd
        · exact h1 (.inl ⟨d, hd, hn⟩)
        · rw [List.mem_singleton] at hd
          subst hd
          cases hn
          exact h1 (.inr ⟨_, .inr ⟨_, _, _, h'⟩⟩)
      · exact h1 (.inr ⟨i, .inl ⟨s', op', List.mem_of_mem_eraseIdx hm⟩⟩)
      · exact h1 (.inr ⟨i, .inr ⟨s', op', c, List.mem_of_mem_eraseIdx hm⟩⟩)
    · intro i hi
      rcases h2 i hi with ⟨d, hd, hn⟩ | ⟨s', op', hx⟩ | ⟨s', op', c, hx⟩
      · exact .inl ⟨d, List.mem_append_left _ hd, hn⟩
      · rcases mem_eraseIdx' h hx with e | e
        · cases e
        · exact .inr (.inl ⟨s', op', e⟩)
      · rcases mem_eraseIdx' h hx with e | e
        · cases e
          exact .inl ⟨_, List.mem_append_right _ (List.mem_singleton_self _), rfl, rfl⟩
        · exact .inr (.inr ⟨s', op', c, e⟩)

theorem reach_known {σ : ASt F X} (h : Reach W σ) (n : Nat) : Known σ n :=
  eff_inv (P := fun σ => Known σ n) ⟨by simp [ASt.init, Calling], by simp [ASt.init]⟩ known_step h

/-- The call site has been called by one goroutine only so far: it has an instance, all its calls used it and none is in
progress.  So it is after its first call has returned, if no other one began before. -/
def Once (σ : ASt F X) (n : Nat) : Prop :=
  (∀ c ∈ σ.calls, c.node ≠ n) ∧ ∃ d, σ.log.filter (fun d => decide (d.node = n)) = [d]

theorem once_settled {σ : ASt F X} (h : Reach W σ) {n : Nat} (ho : Once σ n) : ∃ i, Settled σ n i := by
  obtain ⟨hc, d, hd⟩ := ho
  have hk := reach_known h n
  have hm : d ∈ σ.log.filter (fun d => decide (d.node = n)) := by rw [hd]; simp
  rw [List.mem_filter] at hm
  have hn : d.node = n := by simpa using hm.2
  cases e : σ.fns n with
  | none => exact absurd e (hk.has (.inl ⟨d, hm.1, hn⟩))
  | some i =>
    refine ⟨i, e, fun s op hx => hc _ hx rfl, fun s op id hx => absurd rfl (hc _ hx), fun s op id hx => absurd rfl (hc _ hx),
      fun s op id c hx => absurd rfl (hc _ hx), fun d' hd' hn' => ?_⟩
    have hone : ∀ x ∈ σ.log, x.node = n → x = d := by
      intro x hx hxn
      have : x ∈ σ.log.filter (fun d => decide (d.node = n)) := List.mem_filter.2 ⟨hx, by simpa using hxn⟩
      rw [hd] at this
      simpa using this
    rw [hone d' hd' hn']
    rcases hk.used i e with ⟨x, hx, hxn, hxi⟩ | ⟨_, _, hx⟩ | ⟨_, _, _, hx⟩
    · rw [← hone x hx hxn]; exact hxi
    · exact absurd rfl (hc _ hx)
    · exact absurd rfl (hc _ hx)

/-- The calls of a call site in a context. -/
def callsOf (n c : Nat) (l : List (Done F X)) : List (Done F X) := l.filter (fun d => decide (d.node = n ∧ d.ctx = c))

theorem instId_inj {m n : Nat} (h : instId m = instId n) : m = n := by
  have := congrArg List.length h
  simpa [instId] using this

/-- **C81** If the first call at a call site has returned before any other one begins, then, whatever goroutines
call it from then on, the results of all its calls in a context are those of the same calls made one after the other on an
empty context. -/
theorem C81_calls_partial {σ σ' : ASt F X} (h : Reach W σ) {n : Nat} (ho : Once σ n) {as : List (Act F X)}
    (hr : run W σ as = some σ') (c : Nat) :
    (callsOf n c σ'.log).map (·.result) = (aggRun W [] ((callsOf n c σ'.log).map (fun d => (instId 0, d.op)))).map (·.2) := by
  obtain ⟨i, hi⟩ := once_settled h ho
  have hs : Settled σ' n i := run_inv (P := fun σ => Settled σ n i) (fun σ a σ' hp hs => settled_step σ σ' hp (step_eff hs)) as σ σ' hi hr
  have hre : Reach W σ' := by
    obtain ⟨bs, hb⟩ := h
    exact ⟨bs ++ as, by rw [run_append, hb]; exact hr⟩
  have hser := C81_serial hre c
  have hown := (uses_inv hre).2
  have hfil : callsOf n c σ'.log = (callsAt c σ'.log).filter (fun d => decide (instId d.id = instId i)) := by
    unfold callsOf callsAt
    rw [List.filter_filter]
    refine List.filter_congr (fun d hd => ?_)
    by_cases hc : d.ctx = c
    · by_cases hn : d.node = n
      · simp [hc, hn, hs.log d hd hn]
      · have : d.id ≠ i := by
          intro e
          refine hn (hown d.node n i (.inr (.inr (.inr (.inr ⟨d, hd, rfl, e⟩)))) (.inl hs.fn))
        have : instId d.id ≠ instId i := fun e => this (instId_inj e)
        simp [hc, hn, this]
    · simp [hc]
  have h1 := C31_independent W (instId i) ((callsAt c σ'.log).map asCall) [] [] rfl
  rw [← hser] at h1
  have h2 : ((callsAt c σ'.log).map asResult).filter (fun p => decide (p.1 = instId i)) = (callsOf n c σ'.log).map asResult := by
    rw [hfil, List.filter_map]; rfl
  have h3 : ((callsAt c σ'.log).map asCall).filter (fun p => decide (p.1 = instId i)) = (callsOf n c σ'.log).map asCall := by
    rw [hfil, List.filter_map]; rfl
  rw [h2, h3] at h1
  have h4 : ∀ d ∈ callsOf n c σ'.log, asCall d = (instId i, d.op) := by
    intro d hd
    have hd := List.mem_filter.1 hd
    simp only [decide_eq_true_eq] at hd
    rw [asCall, hs.log d hd.1 hd.2.1]
  rw [List.map_congr_left h4] at h1
  have h5 := congrArg (List.map (·.2)) h1
  rw [List.map_map] at h5
  have h6 : ∀ (ops : List (AggOp F X)) (a b : Str) (x y : AggCtx F X), OD.get x a = OD.get y b →
      (aggRun W x (ops.map (fun o => (a, o)))).map (·.2) = (aggRun W y (ops.map (fun o => (b, o)))).map (·.2) := by
    intro ops a b
    induction ops with
    | nil => intros; rfl
    | cons o ops ih =>
      intro x y hxy
      have hc : (aggCall W x a o).2 = (aggCall W y b o).2 ∧ OD.get (aggCall W x a o).1 a = OD.get (aggCall W y b o).1 b := by
        cases o with
        | sum v => cases v <;> simp [aggCall, AggCtx.modify, OD.get_set_self, hxy]
        | _ => simp [aggCall, AggCtx.modify, OD.get_set_self, hxy]
      simp only [List.map_cons, aggRun, hc.1, ih _ _ hc.2]
  have h7 := h6 ((callsOf n c σ'.log).map (·.op)) (instId i) (instId 0) [] [] rfl
  rw [List.map_map, List.map_map] at h7
  exact h5.trans h7

/-- **C81** In particular count() gives 1, 2, 3 and so on, each to one of the calls. -/
theorem C81_count_partial {σ σ' : ASt F X} (h : Reach W σ) {n : Nat} (ho : Once σ n) {as : List (Act F X)}
    (hr : run W σ as = some σ') (c : Nat) (hc : ∀ d ∈ callsOf n c σ'.log, d.op = .count) :
    (callsOf n c σ'.log).map (·.result) =
      (List.range (callsOf n c σ'.log).length).map (fun k => .count (BitVec.ofNat 64 (k + 1))) := by
  rw [C81_calls_partial h ho hr c]
  have h1 : (callsOf n c σ'.log).map (fun d => (instId 0, d.op)) =
      List.replicate (callsOf n c σ'.log).length (instId 0, .count) := by
    refine List.eq_replicate_iff.2 ⟨by simp, fun b hb => ?_⟩
    obtain ⟨d, hd, rfl⟩ := List.mem_map.1 hb
    rw [hc d hd]
  rw [h1]
  generalize (callsOf n c σ'.log).length = k
  have key : ∀ (k m : Nat) (x : AggCtx F X), OD.get x (instId 0) = (if m = 0 then none else some (.count (BitVec.ofNat 64 m))) →
      (aggRun W x (List.replicate k (instId 0, .count))).map (·.2) =
        (List.range k).map (fun j => .count (BitVec.ofNat 64 (m + j + 1))) := by
    intro k
    induction k with
    | zero => intros; rfl
    | succ k ih =>
      intro m x hx
      have hv : countMod (OD.get x (instId 0)) = (.count (BitVec.ofNat 64 (m + 1)) : Cell F X) := by
        rw [hx]
        by_cases e : m = 0
        · subst e; simp [countMod]
        · simp [e, countMod, BitVec.ofNat_add]
      have h2 := ih (m + 1) (aggCall W x (instId 0) .count).1 (by
        simp only [aggCall, AggCtx.modify, OD.get_set_self]
        rw [hv]; simp)
      rw [List.replicate_succ, List.range_succ_eq_map]
      simp only [aggRun, List.map_cons, h2, List.map_map]
      have : (aggCall W x (instId 0) (.count : AggOp F X)).2 = .count (BitVec.ofNat 64 (m + 1)) := hv
      rw [this]
      congr 1
      refine List.map_congr_left (fun j _ => ?_)
      simp only [Function.comp]
      rw [show m + 1 + j + 1 = m + j.succ + 1 by omega]
  have := key k 0 [] rfl
  simpa using this

/-! ## One context for the copies of a scope -/

/-- The scope at the top. -/
inductive RootOf (l : List ASc) : Nat → Nat → Prop where
  | root {s x} (h : l[s]? = some x) (hp : x.parent = none) : RootOf l s s
  | up {s x p r} (h : l[s]? = some x) (hp : x.parent = some p) (hr : RootOf l p r) : RootOf l s r

theorem RootOf.unique {l : List ASc} {s r r' : Nat} (h : RootOf l s r) (h' : RootOf l s r') : r = r' := by
  induction h with
  | root h hp =>
    cases h' with
    | root => rfl
    | up h2 hp2 => rw [h] at h2; cases h2; rw [hp] at hp2; cases hp2
  | up h hp _ ih =>
    cases h' with
    | root h2 hp2 => rw [h] at h2; cases h2; rw [hp] at hp2; cases hp2
    | up h2 hp2 h3 => rw [h] at h2; cases h2; rw [hp] at hp2; cases hp2; exact ih h3

/-- The scopes have the same parents. -/
def SameUp (l l' : List ASc) : Prop := ∀ (k : Nat) (x : ASc), l[k]? = some x → ∃ y : ASc, l'[k]? = some y ∧ y.parent = x.parent

theorem RootOf.keep {l l' : List ASc} (hk : SameUp l l') {s r : Nat} (h : RootOf l s r) : RootOf l' s r := by
  induction h with
  | root h hp =>
    obtain ⟨y, hy, hp'⟩ := hk _ _ h
    exact .root hy (hp'.trans hp)
  | up h hp _ ih =>
    obtain ⟨y, hy, hp'⟩ := hk _ _ h
    exact .up hy (hp'.trans hp) ih

/-- Parents are older, and only scopes without a parent have a context. -/
def Plain (l : List ASc) : Prop :=
  ∀ (k : Nat) (x : ASc), l[k]? = some x → ∀ p, x.parent = some p → x.ctx = none ∧ p < k

theorem owner_root {l : List ASc} (hp : Plain l) : ∀ (f s : Nat), s < f → s < l.length → RootOf l s (owner l f s)
  | f + 1, s, hf, hs => by
    have hx := List.getElem?_eq_getElem hs
    rw [owner]
    cases e : l[s]? with
    | none => rw [e] at hx; cases hx
    | some x =>
      obtain ⟨p, c⟩ := x
      cases p with
      | none =>
        simp only
        exact .root e rfl
      | some p =>
        obtain ⟨hc, hlt⟩ := hp s _ e p rfl
        simp only at hc
        subst hc
        simp only
        exact .up e rfl (owner_root hp f p (by omega) (by omega))

theorem sameUp_refl (l : List ASc) : SameUp l l := fun k x h => ⟨x, h, rfl⟩
theorem sameUp_push (l : List ASc) (x : ASc) : SameUp l (l ++ [x]) := by
  intro k y h
  have := (List.getElem?_eq_some_iff.1 h).1
  exact ⟨y, by rw [List.getElem?_append_left this]; exact h, rfl⟩
theorem sameUp_modify (l : List ASc) (s c : Nat) : SameUp l (l.modify s (fun x => { x with ctx := some c })) := by
  intro k y h
  rw [List.getElem?_modify, h]
  by_cases e : s = k
  · exact ⟨{ y with ctx := some c }, by simp [e], rfl⟩
  · exact ⟨y, by simp [e], rfl⟩

def Call.scope : Call F X → Nat
  | .start _ s _ => s
  | .copy _ s _ => s
  | .store _ s _ _ => s
  | .call _ s _ _ => s
  | .modify _ s _ _ _ => s

/-- The scope at the top of `s` has the context `c`. -/
def TopHas (l : List ASc) (s c : Nat) : Prop := ∃ r x, RootOf l s r ∧ l[r]? = some x ∧ x.ctx = some c

/-- Every context in use is that of the scope at the top. -/
structure Shared (σ : ASt F X) : Prop where
  plain : Plain σ.scopes
  scope : ∀ c ∈ σ.calls, c.scope < σ.scopes.length
  modify : ∀ n s op id c, .modify n s op id c ∈ σ.calls → TopHas σ.scopes s c
  log : ∀ d ∈ σ.log, TopHas σ.scopes d.scope d.ctx

theorem topHas_push {l : List ASc} {x : ASc} {s c : Nat} (h : TopHas l s c) : TopHas (l ++ [x]) s c := by
  obtain ⟨r, y, h1, h2, h3⟩ := h
  exact ⟨r, y, h1.keep (sameUp_push l x), by rw [List.getElem?_append_left (List.getElem?_eq_some_iff.1 h2).1]; exact h2, h3⟩

theorem topHas_modify {l : List ASc} {s c o k : Nat} (h : TopHas l s c) (ho : ∀ x, l[o]? = some x → x.ctx = none) :
    TopHas (l.modify o (fun x => { x with ctx := some k })) s c := by
  obtain ⟨r, y, h1, h2, h3⟩ := h
  refine ⟨r, y, h1.keep (sameUp_modify l o k), ?_, h3⟩
  rw [List.getElem?_modify, h2]
  by_cases e : o = r
  · subst e; rw [ho y h2] at h3; cases h3
  · simp [e]

theorem plain_push {l : List ASc} (h : Plain l) {q : Option Nat} (hq : ∀ p, q = some p → p < l.length) : Plain (l ++ [⟨q, none⟩]) := by
  intro k x hx p hp
  rw [List.getElem?_append] at hx
  split at hx
  · exact h k x hx p hp
  next hk =>
    have := List.mem_of_getElem? hx
    rw [List.mem_singleton] at this
    subst this
    exact ⟨rfl, by have := hq p hp; omega⟩

theorem getCtx_shared {σ : ASt F X} (h : Shared σ) {s : Nat} (hs : s < σ.scopes.length) :
    SameUp σ.scopes (getCtx σ s).1.scopes ∧ (getCtx σ s).1.scopes.length = σ.scopes.length ∧ Plain (getCtx σ s).1.scopes ∧
    (∀ t c, TopHas σ.scopes t c → TopHas (getCtx σ s).1.scopes t c) ∧ TopHas (getCtx σ s).1.scopes s (getCtx σ s).2 := by
  have hro := owner_root h.plain σ.scopes.length s hs hs
  have hro' : RootOf σ.scopes s (ownerOf σ s) := hro
  have hroot : ∃ x, σ.scopes[ownerOf σ s]? = some x ∧ x.parent = none := by
    clear hro
    generalize ownerOf σ s = o at hro'
    induction hro' with
    | root h hp => exact ⟨_, h, hp⟩
    | up _ _ _ ih =>
      refine ih ?_
      rename_i hx hp hr
      exact Nat.lt_trans (h.plain _ _ hx _ hp).2 hs
  obtain ⟨x, hx, hpx⟩ := hroot
  unfold getCtx
  rw [hx]
  obtain ⟨p, c⟩ := x
  simp only at hpx
  subst hpx
  cases c with
  | some c =>
    exact ⟨sameUp_refl _, rfl, h.plain, fun _ _ ht => ht, ⟨_, _, hro', hx, rfl⟩⟩
  | none =>
    have ho : ∀ x, σ.scopes[ownerOf σ s]? = some x → x.ctx = none := by
      intro y hy; rw [hx] at hy; cases hy; rfl
    refine ⟨sameUp_modify _ _ _, by simp, ?_, fun t c ht => topHas_modify ht ho, ⟨_, ⟨none, some σ.ctxs.length⟩, hro'.keep (sameUp_modify _ _ _), ?_, rfl⟩⟩
    · intro k y hy p hp
      simp only at hy
      rw [List.getElem?_modify] at hy
      by_cases e : ownerOf σ s = k
      · subst e
        rw [hx] at hy
        simp at hy
        subst hy
        cases hp
      · cases e' : σ.scopes[k]? with
        | none => rw [e'] at hy; cases hy
        | some z =>
          rw [e'] at hy
          simp [e] at hy
          subst hy
          exact h.plain k z e' p hp
    · simp only
      rw [List.getElem?_modify, hx]
      simp

theorem shared_step {σ σ' : ASt F X} {a : Act F X} (h : Shared σ) (hs : step W σ a = some σ') (hf : ∀ s, a ≠ .fresh s) : Shared σ' := by
  have lift : ∀ (x : ASc), ∀ c ∈ σ.calls, c.scope < (σ.scopes ++ [x]).length := by
    intro x c hc
    have := h.scope c hc
    rw [List.length_append]; omega
  cases a with
  | root =>
    cases hs
    exact ⟨plain_push h.plain (by simp), lift _, fun n s op id c hm => topHas_push (h.modify n s op id c hm),
      fun d hd => topHas_push (h.log d hd)⟩
  | copyScope s =>
    simp only [step] at hs
    split at hs
    next hlt =>
      cases hs
      exact ⟨plain_push h.plain (by simpa using hlt), lift _, fun n s op id c hm => topHas_push (h.modify n s op id c hm),
        fun d hd => topHas_push (h.log d hd)⟩
    next => cases hs
  | fresh s => exact absurd rfl (hf s)
  | «begin» n s op =>
    simp only [step] at hs
    split at hs
    next hlt =>
      cases hs
      refine ⟨h.plain, fun c hc => ?_, fun n s op id c hm => h.modify n s op id c (by simpa using hm), h.log⟩
      rcases List.mem_append.1 hc with hc | hc
      · exact h.scope c hc
      · rw [List.mem_singleton] at hc; subst hc; exact hlt
    next => cases hs
  | step i =>
    simp only [step] at hs
    split at hs
    next c hc =>
      cases hs
      have hm' := List.mem_of_getElem? hc
      have hsc := h.scope c hm'
      have keep : ∀ c' : Call F X, c'.scope = c.scope → ∀ x ∈ σ.calls.set i c', x.scope < σ.scopes.length := by
        intro c' he x hx
        rcases mem_set' hx with hx | rfl
        · exact h.scope x hx
        · rw [he]; exact hsc
      cases c with
      | start n s op =>
        simp only [advance]
        split
        · exact ⟨h.plain, keep _ rfl, fun n s op id c hm => h.modify n s op id c ((mem_set' hm).resolve_right (by simp)), h.log⟩
        · exact ⟨h.plain, keep _ rfl, fun n s op id c hm => h.modify n s op id c ((mem_set' hm).resolve_right (by simp)), h.log⟩
      | copy n s op => exact ⟨h.plain, keep _ rfl, fun n s op id c hm => h.modify n s op id c ((mem_set' hm).resolve_right (by simp)), h.log⟩
      | store n s op id => exact ⟨h.plain, keep _ rfl, fun n s op id c hm => h.modify n s op id c ((mem_set' hm).resolve_right (by simp)), h.log⟩
      | call n s op id =>
        obtain ⟨_, h2, h3, h4, h5⟩ := getCtx_shared (s := s) h hsc
        obtain ⟨l, cs, _, hg⟩ := getCtx_eff σ s
        have hlog : (getCtx σ s).1.log = σ.log := by rw [hg]
        refine ⟨h3, fun x hx => ?_, fun n s op id c hm => ?_, fun d hd => ?_⟩
        · show x.scope < (getCtx σ s).1.scopes.length
          rw [h2]
          exact keep (.modify n s op id (getCtx σ s).2) rfl x hx
        · rcases mem_set' hm with hm | hm
          · exact h4 _ _ (h.modify _ _ _ _ _ hm)
          · cases hm; exact h5
        · have hd : d ∈ (getCtx σ s).1.log := hd
          rw [hlog] at hd
          exact h4 _ _ (h.log d hd)
      | modify n s op id c =>
        refine ⟨h.plain, fun x hx => h.scope x (List.mem_of_mem_eraseIdx hx), fun n s op id c hm => h.modify n s op id c (List.mem_of_mem_eraseIdx hm),
          fun d hd => ?_⟩
        rcases List.mem_append.1 hd with hd | hd
        · exact h.log d hd
        · rw [List.mem_singleton] at hd
          subst hd
          exact h.modify _ _ _ _ _ hm'
    next => cases hs

theorem run_shared : ∀ (as : List (Act F X)) (σ σ' : ASt F X), Shared σ → (∀ s, .fresh s ∉ as) → run W σ as = some σ' → Shared σ'
  | [], σ, σ', hp, _, h => by cases h; exact hp
  | a :: as, σ, σ', hp, hf, h => by
    simp only [run] at h
    cases h1 : step W σ a with
    | none => rw [h1] at h; cases h
    | some τ =>
      rw [h1] at h
      exact run_shared as τ σ' (shared_step hp h1 (fun s e => hf s (by simp [e]))) (fun s hm => hf s (by simp [hm])) h

/-- **C81** As long as no scope is given a context of its own, the calls made in copies of a scope, and copies of copies, all
use one context, even if several of them are the first to ask for it. -/
theorem C81_one_context {as : List (Act F X)} {σ : ASt F X} (h : run W .init as = some σ) (hf : ∀ s, .fresh s ∉ as)
    {d e : Done F X} (hd : d ∈ σ.log) (he : e ∈ σ.log) {r : Nat} (h1 : RootOf σ.scopes d.scope r) (h2 : RootOf σ.scopes e.scope r) :
    d.ctx = e.ctx := by
  have hs := run_shared as .init σ ⟨by intro k x hx; simp [ASt.init] at hx, by simp [ASt.init], by simp [ASt.init], by simp [ASt.init]⟩ hf h
  obtain ⟨r1, x1, a1, a2, a3⟩ := hs.log d hd
  obtain ⟨r2, x2, b1, b2, b3⟩ := hs.log e he
  rw [a1.unique h1] at a2
  rw [b1.unique h2] at b2
  rw [a2] at b2
  cases b2
  rw [a3] at b3
  exact Option.some.inj b3

/-! ## What is not so -/

/-- Two goroutines make the first call of a call site at the same time, each in its copy of a scope. -/
def raceRun : List (Act F X) :=
  [.root, .copyScope 0, .copyScope 0, .begin 7 1 .count, .begin 7 2 .count, .step 0, .step 1, .step 0, .step 1, .step 0, .step 1]

/-- They go on; then one of them calls again. -/
def raceRest : List (Act F X) :=
  [.step 0, .step 1, .step 0, .step 0, .begin 7 1 .count, .step 0, .step 0, .step 0]

/-- **C81** Two calls of count() may both give 1, and a third one 2: calls that find no instance at the call site each make
their own. -/
theorem C81_race_refuted (W : World F X) : ∃ σ : ASt F X, Reach W σ ∧ σ.calls = [] ∧
    ∃ c, (callsOf 7 c σ.log).map (·.result) = [.count 1#64, .count 1#64, .count 2#64] ∧ ∀ d ∈ σ.log, d.op = .count := by
  have h : run W .init raceRun = some (ASt.mk (F := F) (X := X) [⟨none, none⟩, ⟨some 0, none⟩, ⟨some 0, none⟩]
      [] (fun k => if k = 7 then some 2 else if k = 7 then some 1 else none) 2 [.call 7 1 .count 1, .call 7 2 .count 2] []) := by
    rfl
  have h' : run W (ASt.mk (F := F) (X := X) [⟨none, none⟩, ⟨some 0, none⟩, ⟨some 0, none⟩]
      [] (fun k => if k = 7 then some 2 else if k = 7 then some 1 else none) 2 [.call 7 1 .count 1, .call 7 2 .count 2] []) raceRest =
      some (ASt.mk (F := F) (X := X) [⟨none, some 0⟩, ⟨some 0, none⟩, ⟨some 0, none⟩]
      [[(instId 1, .count 1#64), (instId 2, .count 2#64)]] (fun k => if k = 7 then some 2 else if k = 7 then some 1 else none) 2 []
      [⟨7, 1, 0, 1, .count, .count 1#64⟩, ⟨7, 2, 0, 2, .count, .count 1#64⟩, ⟨7, 1, 0, 2, .count, .count 2#64⟩]) := by
    simp [raceRest, run, step, advance, getCtx, ownerOf, owner, aggCall, AggCtx.modify, OD.get, OD.set, OD.erase, countMod, instId, List.find?, List.filter]
  refine ⟨_, ⟨raceRun ++ raceRest, by rw [run_append, h]; exact h'⟩, rfl, 0, rfl, ?_⟩
  intro d hd
  simp only [List.mem_cons, List.not_mem_nil, or_false] at hd
  rcases hd with rfl | rfl | rfl <;> rfl

/-- A call site called once, then by two goroutines at the same time. -/
def orderlyRun : List (Act F X) :=
  [.root, .copyScope 0, .copyScope 0, .begin 7 1 .count, .step 0, .step 0, .step 0, .step 0, .step 0]

def orderlyRest : List (Act F X) :=
  [.begin 7 1 .count, .begin 7 2 .count, .step 0, .step 1, .step 1, .step 0, .step 1, .step 0]

example (W : World F X) : ∃ σ σ' : ASt F X, Reach W σ ∧ Once σ 7 ∧ run W σ orderlyRest = some σ' ∧
    (callsOf 7 0 σ'.log).map (·.result) = [.count 1#64, .count 2#64, .count 3#64] := by
  have h : run W .init orderlyRun = some (ASt.mk (F := F) (X := X) [⟨none, some 0⟩, ⟨some 0, none⟩, ⟨some 0, none⟩]
      [[(instId 1, .count 1#64)]] (fun k => if k = 7 then some 1 else none) 1 []
      [⟨7, 1, 0, 1, .count, .count 1#64⟩]) := by
    rfl
  have h' : run W (ASt.mk (F := F) (X := X) [⟨none, some 0⟩, ⟨some 0, none⟩, ⟨some 0, none⟩]
      [[(instId 1, .count 1#64)]] (fun k => if k = 7 then some 1 else none) 1 []
      [⟨7, 1, 0, 1, .count, .count 1#64⟩]) orderlyRest = some (ASt.mk (F := F) (X := X) [⟨none, some 0⟩, ⟨some 0, none⟩, ⟨some 0, none⟩]
      [[(instId 1, .count 3#64)]] (fun k => if k = 7 then some 1 else none) 1 []
      [⟨7, 1, 0, 1, .count, .count 1#64⟩, ⟨7, 2, 0, 1, .count, .count 2#64⟩, ⟨7, 1, 0, 1, .count, .count 3#64⟩]) := by
    rfl
  exact ⟨_, _, ⟨orderlyRun, h⟩, ⟨by simp, ⟨_, rfl⟩⟩, h', rfl⟩

end Vfilter.AggConc
