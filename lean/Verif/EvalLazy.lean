import Verif.EvalExpr
/-!
# Lazy arguments

A lazy argument never reduces to a lazy argument (`lazy.go:149-178`), and what reducing one
means in terms of its expression.
-/
set_option linter.all false

namespace Vfilter.Vql

section
variable {F S : Type} [FloatOps F] {H : Host F S}

/-- Like `run_inv`, together with a property of results. -/
theorem run_inv_post (hH : H.Polite) {Inv : St F S → Prop} {Post : (c : Call F) → c.Ret → Prop}
    (hprim : ∀ (p : Prim F S) st, p.plain = true → Inv st → Inv (p.step st).2)
    (hw : ∀ n (c : Call F), c.writer = true →
      (∀ (c : Call F) st r, run H n c st = some r → Inv st → Inv r.2 ∧ Post c r.1) →
      ∀ st r, interp (run H n) (body H c) st = some r → Inv st → Inv r.2)
    (hp : ∀ n (c : Call F),
      (∀ (c : Call F) st r, run H n c st = some r → Inv st → Inv r.2 ∧ Post c r.1) →
      ∀ st r, interp (run H n) (body H c) st = some r → Inv st → Post c r.1) (n : Nat) :
    ∀ (c : Call F) st r, run H n c st = some r → Inv st → Inv r.2 ∧ Post c r.1 := by
  induction n with
  | zero => intro c st r h; simp [run] at h
  | succ n ih =>
    intro c st r h hi
    refine ⟨?_, hp n c ih st r h hi⟩
    by_cases hc : c.writer = true
    · exact hw n c hc ih st r h hi
    · have hp := polite_body hH c
      rw [Bool.not_eq_true] at hc
      rw [hc] at hp
      exact interp_inv (fun c st r h hi => (ih c st r h hi).1) hprim _ [] _ _ hp h hi

/-- Not a lazy expression. -/
def NotLazy : V F → Prop
  | .obj (.lazy _) => False
  | _ => True

/-- Cached values of lazy expressions are not lazy expressions. -/
def LazyOK (st : St F S) : Prop :=
  ∀ (c : Nat) (l : LazyCell F), st.lazies[c]? = some l → ∀ v, l.value = some v → NotLazy v

/-- What is said of results. -/
def LazyPost : (c : Call F) → c.Ret → Prop
  | .lazyWith _ _, v => NotLazy v
  | .lazyReduce _, v => NotLazy v
  | _, _ => True

omit [FloatOps F] in
theorem lazyOK_prim (p : Prim F S) (st : St F S) (hp : p.plain = true) (h : LazyOK st) :
    LazyOK (p.step st).2 := by
  have same : ∀ st' : St F S, st'.lazies = st.lazies → LazyOK st' := by
    intro st' e c r hr
    rw [e] at hr
    exact h c r hr
  cases p with
  | newLazy e s =>
    intro c r hr v hv
    simp only [Prim.step] at hr
    by_cases hc : c < st.lazies.length
    · rw [List.getElem?_append_left hc] at hr
      exact h c r hr v hv
    · rw [List.getElem?_append_right (Nat.not_lt.1 hc)] at hr
      cases hj : c - st.lazies.length with
      | zero =>
        rw [hj] at hr
        simp only [List.getElem?_cons_zero, Option.some.injEq] at hr
        subst hr
        simp at hv
      | succ j => rw [hj] at hr; simp at hr
  | fnOf m name =>
    simp only [Prim.step]
    split <;> exact same _ rfl
  | ag s f =>
    refine same _ ?_
    show (st.getAg s).2.lazies = st.lazies
    unfold St.getAg
    simp only
    split <;> rfl
  | _ => first | exact same _ rfl | simp [Prim.plain] at hp

theorem lazyOK_post (n : Nat) (c : Call F)
    (ih : ∀ (c : Call F) st r, run H n c st = some r → LazyOK st → LazyOK r.2 ∧ LazyPost c r.1) :
    ∀ st r, interp (run H n) (body H c) st = some r → LazyOK st → LazyPost c r.1 := by
  intro st r h hi
  cases c with
  | lazyWith c s =>
    simp only [body, bind_eq, prim, Prog.bind, interp, Prim.step] at h
    split at h
    · simp only [pure_eq, interp, Option.some.injEq] at h
      subst h
      trivial
    · rename_i l hl
      simp only [call, Prog.bind, interp] at h
      cases hrun : run H n (.and l.expr l.scope) st with
      | none => simp [hrun] at h
      | some x =>
        simp only [hrun] at h
        have hi1 := (ih _ _ _ hrun hi).1
        split at h
        · simp only [pure_eq, interp, Option.some.injEq] at h
          subst h
          trivial
        · rename_i c' hc'
          simp only [interp] at h
          cases hrun2 : run H n (.lazyReduce c') x.2 with
          | none => simp [hrun2] at h
          | some y =>
            simp only [hrun2, Option.some.injEq] at h
            subst h
            exact (ih _ _ _ hrun2 hi1).2
        · rename_i h1 h2
          simp only [pure_eq, interp, Option.some.injEq] at h
          subst h
          show NotLazy x.1
          cases hx : x.1 with
          | obj o => cases o <;> first | trivial | exact absurd hx (h2 _)
          | _ => trivial
  | lazyReduce c =>
    simp only [body, bind_eq, prim, Prog.bind, interp, Prim.step] at h
    split at h
    · simp only [pure_eq, interp, Option.some.injEq] at h
      subst h
      trivial
    · rename_i l hl
      split at h
      · rename_i v hv
        simp only [pure_eq, interp, Option.some.injEq] at h
        subst h
        exact hi c l hl v hv
      · simp only [call, Prog.bind, interp] at h
        cases hrun : run H n (.lazyWith c l.scope) st with
        | none => simp [hrun] at h
        | some x =>
          simp only [hrun, pure_eq, interp, Option.some.injEq] at h
          subst h
          exact (ih _ _ _ hrun hi).2
  | _ => trivial

omit [FloatOps F] in
theorem lazyOK_set {st : St F S} {c : Nat} {v : V F} (h : LazyOK st) (hv : NotLazy v) :
    LazyOK ((Prim.lazySet c v : Prim F S).step st).2 := by
  intro c' l' hl' w hw
  simp only [Prim.step] at hl'
  cases hc : st.lazies[c]? with
  | none =>
    simp only [hc] at hl'
    exact h c' l' hl' w hw
  | some l =>
    simp only [hc] at hl'
    by_cases he : c = c'
    · subst he
      have hlt : c < st.lazies.length := (List.getElem?_eq_some_iff.1 hc).1
      rw [List.getElem?_set_self hlt] at hl'
      simp only [Option.some.injEq] at hl'
      subst hl'
      simp only [Option.some.injEq] at hw
      subst hw
      exact hv
    · rw [List.getElem?_set_ne he] at hl'
      exact h c' l' hl' w hw

theorem lazyOK_writer (n : Nat) (c : Call F) (hc : c.writer = true)
    (ih : ∀ (c : Call F) st r, run H n c st = some r → LazyOK st → LazyOK r.2 ∧ LazyPost c r.1) :
    ∀ st r, interp (run H n) (body H c) st = some r → LazyOK st → LazyOK r.2 := by
  intro st r h hi
  have ih1 : ∀ (c : Call F) st r, run H n c st = some r → LazyOK st → LazyOK r.2 :=
    fun c st r h hi => (ih c st r h hi).1
  cases c with
  | getter g =>
    cases g with
    | const v =>
      simp only [body, pure_eq, interp, Option.some.injEq] at h
      subst h
      exact hi
    | col c nm ns =>
      have h' : interp (run H n) (call (.col c ns) >>= fun item => colValueP ns item)
          { st with evals := st.evals ++ [(nm, ns)] } = some r := h
      refine interp_inv ih1 (fun p st hp => lazyOK_prim p st hp) _ [] _ _ ?_ h' hi
      refine (polite_call_bind _ _ _).2 (fun item => ?_)
      unfold colValueP
      split
      · trivial
      · split
        · exact (polite_materializeP _ _ _).bind (fun _ => trivial)
        · trivial
  | rowGet c k =>
    simp only [body, bind_eq, prim, Prog.bind, interp, Prim.step] at h
    have h' := h
    clear h
    split at h'
    · simp only [pure_eq, interp, Option.some.injEq] at h'
      subst h'
      exact hi
    · rename_i r0 hr0
      split at h'
      · simp only [pure_eq, interp, Option.some.injEq] at h'
        subst h'
        exact hi
      · split at h'
        · simp only [pure_eq, interp, Option.some.injEq] at h'
          subst h'
          exact hi
        · rename_i g hg
          have h2 : interp (run H n) (Prog.call (.getter g) (fun v => Prog.prim (.rowSet c k v)
            (fun _ => Prog.ret (some v, true))) : Prog F S (Option (V F) × Bool)) st = some r := h'
          simp only [interp] at h2
          cases hrun : run H n (.getter g) st with
          | none => simp [hrun] at h2
          | some x =>
            simp only [hrun, Option.some.injEq] at h2
            subst h2
            exact ih1 _ _ _ hrun hi
  | lazyReduce c =>
    simp only [body, bind_eq, prim, Prog.bind, interp, Prim.step] at h
    split at h
    · simp only [pure_eq, interp, Option.some.injEq] at h
      subst h
      exact hi
    · rename_i l hl
      split at h
      · simp only [pure_eq, interp, Option.some.injEq] at h
        subst h
        exact hi
      · simp only [call, Prog.bind, interp] at h
        cases hrun : run H n (.lazyWith c l.scope) st with
        | none => simp [hrun] at h
        | some x =>
          simp only [hrun, pure_eq, interp, Option.some.injEq] at h
          subst h
          exact lazyOK_set (ih1 _ _ _ hrun hi) (ih _ _ _ hrun hi).2
  | _ => simp [Call.writer] at hc

theorem run_lazyOK (hH : H.Polite) (n : Nat) :
    ∀ (c : Call F) st r, run H n c st = some r → LazyOK st → LazyOK r.2 ∧ LazyPost c r.1 :=
  run_inv_post hH lazyOK_prim (fun n c hc ih => lazyOK_writer n c hc ih) (fun n c ih => lazyOK_post n c ih) n

/-- Cached values of lazy expressions never are lazy expressions. -/
theorem Runs.lazyOK {α : Type} {p : Prog F S α} {st st' : St F S} {a : α} (hH : H.Polite)
    (hp : p.Polite false []) (h : Runs H p st a st') (hi : LazyOK st) : LazyOK st' := by
  obtain ⟨n, h⟩ := h
  exact interp_inv (fun c st r h hi => (run_lazyOK hH n c st r h hi).1) lazyOK_prim _ [] _ _ hp h hi

/-- A lazy expression reduces to something else. -/
theorem lazyWith_notLazy (hH : H.Polite) {c s : Nat} {st st' : St F S} {v : V F}
    (h : Runs H (call (.lazyWith c s)) st v st') (hi : LazyOK st) : NotLazy v := by
  obtain ⟨n, h⟩ := h
  simp only [exec, call, interp] at h
  cases hr : run H n (.lazyWith c s) st with
  | none => simp [hr] at h
  | some x =>
    simp only [hr, Option.some.injEq] at h
    cases h
    exact (run_lazyOK hH n _ _ _ hr hi).2

/-- The value of an argument expression when a function asks for it: materialized queries
become arrays, and lazy expressions are reduced. -/
def Forces (H : Host F S) (e : AndE) (s : Nat) (st : St F S) (v : V F) (st' : St F S) : Prop :=
  ∃ r s1, Runs H (call (.and e s)) st r s1 ∧
    match r with
    | .query rows => v = .arr rows ∧ st' = s1
    | .obj (.lazy c) => Runs H (call (.lazyReduce c)) s1 v st'
    | r => v = r ∧ st' = s1

theorem runs_lazyWith {c s : Nat} {st st' : St F S} {v : V F} {l : LazyCell F}
    (hl : st.lazies[c]? = some l) :
    Runs H (call (.lazyWith c s)) st v st' ↔ Forces H l.expr l.scope st v st' := by
  rw [runs_call]
  simp only [body]
  rw [runs_pb]
  simp only [Prim.step, hl]
  rw [runs_bind]
  unfold Forces
  constructor
  · rintro ⟨r, s1, h1, h2⟩
    refine ⟨r, s1, h1, ?_⟩
    split at h2
    · exact runs_pure.1 h2
    · exact h2
    · rename_i h3 h4
      split
      · exact absurd rfl (h3 _)
      · exact absurd rfl (h4 _)
      · exact runs_pure.1 h2
  · rintro ⟨r, s1, h1, h2⟩
    refine ⟨r, s1, h1, ?_⟩
    split
    · exact runs_pure.2 h2
    · exact h2
    · rename_i h3 h4
      split at h2
      · exact absurd rfl (h3 _)
      · exact absurd rfl (h4 _)
      · exact runs_pure.2 h2

/-- A call of a registered function. -/
theorem runs_fcall {node : Nat} {symbol c : Str} {params : List Arg} {s : Nat} {st st' : St F S} {a : V F}
    (hs : splitIdent symbol = [c]) (hm : hasMinus [c] = false) (hf : H.isFn c = true) :
    Runs H (call (.value (.sym (.mk node symbol true params)) s)) st a st' ↔
      Runs H (callFunctionP H node c params s) (st.seen node) a st' := by
  have htrim : trimMinus [c] = [c] := by
    unfold trimMinus
    split
    · rename_i c' r h
      cases h
      simp [hasMinus] at hm
    · rfl
  conv => lhs; rw [runs_call]
  simp only [body]
  conv => lhs; rw [runs_call]
  simp only [body, symP]
  rw [runs_pb]
  simp only [hs, htrim, findP, hf, and_self, if_true]
  rw [runs_rb]
  simp only [hm, Bool.and_false, symValueP, Bool.true_eq_false, if_false, negateP, Bool.false_eq_true]
  exact runs_bind_pure

end
end Vfilter.Vql
