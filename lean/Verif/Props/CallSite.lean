import Verif.CallSite
/-!
# C89: a call calls the function registered under its name
-/

set_option linter.all false

namespace Vfilter.CallSite

section
variable {T D A V : Type} {G : Types T D A V} {nameOf : Nat → Str}

/-! ## One call site in a history -/

/-- What the calls at `site` give. -/
def outsOf (site : Nat) (l : List (Nat × Out V)) : List (Out V) := (l.filter (fun p => p.1 == site)).map Prod.snd

/-- The functions registered at the end of a history. -/
def regAfter (reg : Nat → Str → Option (Fn T D)) : List (Act T D A) → Nat → Str → Option (Fn T D)
  | [] => reg
  | .register s name f :: as => regAfter (fun t n => if t = s ∧ n = name then some f else reg t n) as
  | .eval _ _ _ :: as => regAfter reg as

/-- The calls at `site` in a history: the function registered under the name at that moment in the scope
of the call, and the arguments. -/
def callsAt (nameOf : Nat → Str) (site : Nat) (reg : Nat → Str → Option (Fn T D)) :
    List (Act T D A) → List (Option (Fn T D) × A)
  | [] => []
  | .register s name f :: as => callsAt nameOf site (fun t n => if t = s ∧ n = name then some f else reg t n) as
  | .eval s n args :: as =>
    (if n = site then [(reg s (nameOf site), args)] else []) ++ callsAt nameOf site reg as

/-- A Go program that calls one value again and again. -/
def callAll (G : Types T D A V) : Fn T D → List (Option (Fn T D) × A) → List (Out V)
  | _, [] => []
  | g, (none, _) :: l => .missing :: callAll G g l
  | g, (some _, a) :: l => again (G.call g.ty g.data a).1 :: callAll G ⟨g.ty, (G.call g.ty g.data a).2⟩ l

/-- The same for a call that has not been evaluated: a copy of the first function that is found is called
from then on. -/
def callFresh (G : Types T D A V) : List (Option (Fn T D) × A) → List (Out V)
  | [] => []
  | (none, _) :: l => .missing :: callFresh G l
  | (some f, a) :: l =>
    first (G.call (copyFn G f).ty (copyFn G f).data a).1 ::
      callAll G ⟨(copyFn G f).ty, (G.call (copyFn G f).ty (copyFn G f).data a).2⟩ l

/-- What the calls at a site give that keeps `g`. -/
def callFrom (G : Types T D A V) (g : Option (Fn T D)) (l : List (Option (Fn T D) × A)) : List (Out V) :=
  match g with
  | none => callFresh G l
  | some g => callAll G g l

theorem outsOf_append (site : Nat) (a b : List (Nat × Out V)) : outsOf site (a ++ b) = outsOf site a ++ outsOf site b := by
  unfold outsOf; simp

theorem run_site (site : Nat) : ∀ (as : List (Act T D A)) (σ : CSt T D),
    outsOf site (run G nameOf σ as).1 = callFrom G (σ.sites site) (callsAt nameOf site σ.reg as)
  | [], σ => by
    unfold callFrom
    cases σ.sites site <;> rfl
  | .register s name f :: as, σ => by
    unfold run
    rw [outsOf_append]
    exact run_site site as _
  | .eval s n args :: as, σ => by
    have ih := run_site site as (step G nameOf σ (.eval s n args)).2
    unfold run
    rw [outsOf_append, ih]
    show _ = callFrom G _ ((if n = site then [(σ.reg s (nameOf site), args)] else []) ++ callsAt nameOf site σ.reg as)
    have hreg : (step G nameOf σ (.eval s n args)).2.reg = σ.reg := by
      unfold step evalSite
      simp only
      split
      · rfl
      · split <;> rfl
    rw [hreg]
    by_cases hn : n = site
    · subst hn
      rw [if_pos rfl]
      have hout : ∀ o : Out V, outsOf n (some (n, o)).toList = [o] := by
        intro o
        simp [outsOf]
      cases hr : σ.reg s (nameOf n) with
      | none =>
        have he : step G nameOf σ (.eval s n args) = (some (n, .missing), σ) := by
          unfold step evalSite
          simp only [hr]
        rw [he, hout]
        unfold callFrom
        cases σ.sites n <;> rfl
      | some f =>
        cases hs : σ.sites n with
        | none =>
          have he : step G nameOf σ (.eval s n args) = (some (n, first (G.call (copyFn G f).ty (copyFn G f).data args).1),
              { σ with sites := fun m => if m = n then some ⟨(copyFn G f).ty, (G.call (copyFn G f).ty (copyFn G f).data args).2⟩
                else σ.sites m }) := by
            unfold step evalSite
            simp only [hr, hs]
          rw [he, hout]
          unfold callFrom
          simp only [if_true]
          rfl
        | some g =>
          have he : step G nameOf σ (.eval s n args) = (some (n, again (G.call g.ty g.data args).1),
              { σ with sites := fun m => if m = n then some ⟨g.ty, (G.call g.ty g.data args).2⟩ else σ.sites m }) := by
            unfold step evalSite
            simp only [hr, hs]
          rw [he, hout]
          unfold callFrom
          simp only [if_true]
          rfl
    · rw [if_neg hn]
      have hsite : (step G nameOf σ (.eval s n args)).2.sites site = σ.sites site := by
        have hn' : site ≠ n := fun h => hn h.symm
        unfold step evalSite
        simp only
        split
        · rfl
        · split <;> simp [hn']
      rw [hsite]
      have ho : outsOf site ((step G nameOf σ (.eval s n args)).1.toList) = [] := by
        unfold step outsOf
        simp [hn]
      rw [ho]
      rfl

/-! ## The property -/

/-- **C89** For every history of registrations and calls: what the calls at one place in the parsed
queries give is what a Go program gets that copies the function found by the first of them and calls that
copy with the arguments of each of them.  It does not depend on calls in other places. -/
theorem C89_site (reg : Nat → Str → Option (Fn T D)) (as : List (Act T D A)) (site : Nat) :
    outsOf site (run G nameOf (.start reg) as).1 = callFresh G (callsAt nameOf site reg as) :=
  run_site site as _

/-- **C89** The first call at a place that finds a function calls a value of the same type.  Its fields are those
that the type's `Copy` method makes of the fields of the registered function; without a `Copy` method they are
those of a new value. -/
theorem C89_copy (reg : Nat → Str → Option (Fn T D)) (as : List (Act T D A)) (site : Nat) {f : Fn T D} {a : A}
    {l : List (Option (Fn T D) × A)} (h : callsAt nameOf site reg as = (some f, a) :: l) :
    (∀ c, G.copy f.ty = some c → (outsOf site (run G nameOf (.start reg) as).1).head? =
      some (first (G.call f.ty (c f.data) a).1)) ∧
    (G.copy f.ty = none → (outsOf site (run G nameOf (.start reg) as).1).head? =
      some (first (G.call f.ty (G.zero f.ty) a).1)) := by
  rw [C89_site, h]
  refine ⟨fun c hc => ?_, fun hc => ?_⟩ <;> simp [callFresh, copyFn, hc]

/-- A function that a call site may copy and keep without a difference: calling does not change its
fields, the copy has the same ones, and it does not return nil pointers, maps or slices. -/
structure Steady (G : Types T D A V) (f : Fn T D) : Prop where
  same : ∀ a, (G.call f.ty f.data a).2 = f.data
  copied : copyFn G f = f
  noNil : ∀ a, (G.call f.ty f.data a).1 ≠ .typedNil

/-- What calling the registered function itself gives. -/
def direct (G : Types T D A V) : Option (Fn T D) × A → Out V
  | (none, _) => .missing
  | (some f, a) => again (G.call f.ty f.data a).1

theorem callAll_steady {f : Fn T D} (hf : Steady G f) : ∀ {l : List (Option (Fn T D) × A)},
    (∀ p ∈ l, ∀ g, p.1 = some g → g = f) → callAll G f l = l.map (direct G)
  | [], _ => rfl
  | (none, a) :: l, h => by
    unfold callAll
    rw [callAll_steady hf (fun p hp => h p (by simp [hp]))]
    rfl
  | (some g, a) :: l, h => by
    have hg : g = f := h (some g, a) (by simp) g rfl
    subst hg
    unfold callAll
    rw [hf.same, callAll_steady hf (fun p hp => h p (by simp [hp]))]
    rfl

/-- **C89** If all calls at a place find the same function, and it is one that can be copied and kept, then
each call gives what the registered function gives for its arguments. -/
theorem C89_registered_partial {reg : Nat → Str → Option (Fn T D)} {as : List (Act T D A)} {site : Nat} {f : Fn T D}
    (hf : Steady G f) (h : ∀ p ∈ callsAt nameOf site reg as, ∀ g, p.1 = some g → g = f) :
    outsOf site (run G nameOf (.start reg) as).1 = (callsAt nameOf site reg as).map (direct G) := by
  rw [C89_site]
  generalize callsAt nameOf site reg as = l at h
  induction l with
  | nil => rfl
  | cons p l ih =>
    obtain ⟨o, a⟩ := p
    cases o with
    | none =>
      unfold callFresh
      rw [ih (fun p hp => h p (by simp [hp]))]
      rfl
    | some g =>
      have hg : g = f := h (some g, a) (by simp) g rfl
      subst hg
      unfold callFresh
      rw [hf.copied, hf.same, callAll_steady hf (fun p hp => h p (by simp [hp])), List.map_cons]
      congr 1
      unfold direct first again
      have := hf.noNil a
      cases hr : (G.call g.ty g.data a).1 <;> simp_all

/-- **C89** Calls at different places share nothing: what a place gives and the functions that are
registered are the same if the calls at another place are left out. -/
theorem C89_apart {reg : Nat → Str → Option (Fn T D)} {as : List (Act T D A)} {site other : Nat} (hne : site ≠ other) :
    outsOf site (run G nameOf (.start reg) as).1 =
      outsOf site (run G nameOf (.start reg) (as.filter (fun a => match a with
        | .eval _ n _ => !decide (n = other)
        | _ => true))).1 := by
  rw [C89_site, C89_site]
  congr 1
  induction as generalizing reg with
  | nil => rfl
  | cons a as ih =>
    cases a with
    | register s name f => exact ih
    | eval s n args =>
      by_cases hn : n = other
      · have h1 : n ≠ site := fun h => hne (h.symm.trans hn)
        rw [List.filter_cons]
        simp only [hn, decide_true, Bool.not_true, Bool.false_eq_true, if_false]
        rw [← hn]
        simp only [callsAt, if_neg h1, List.nil_append]
        rw [ih, hn]
      · rw [List.filter_cons]
        simp only [hn, decide_false, Bool.not_false, if_true, callsAt]
        rw [ih]

/-- **C89** Functions found by name are those registered last in the scope. -/
theorem C89_registers (reg : Nat → Str → Option (Fn T D)) (as : List (Act T D A)) :
    (run G nameOf (.start reg) as).2.reg = regAfter reg as := by
  have : ∀ (as : List (Act T D A)) (σ : CSt T D), (run G nameOf σ as).2.reg = regAfter σ.reg as := by
    intro as
    induction as with
    | nil => intro σ; rfl
    | cons a as ih =>
      intro σ
      cases a with
      | register s name f => exact ih _
      | eval s n args =>
        unfold run
        simp only
        rw [ih]
        show regAfter _ _ = regAfter σ.reg as
        congr 1
        unfold step evalSite
        simp only
        split
        · rfl
        · split <;> rfl
  exact this as _

end

/-! ## Where it fails -/

/-- Two Go types with one field each: the first returns it, the second a nil slice.  The third returns its
field and has a method `Copy`. -/
def demo : Types Nat Nat Unit Nat where
  call t d _ := (if t = 1 then .typedNil else .val d, d)
  zero _ := 0
  copy t := if t = 2 then some id else none

/-- **C89** It does not hold for all functions and histories.  (1) A function registered later under the
same name is not called where the name was called before.  (2) Nor is the function of another scope.
(3) A function without `Copy` is called with empty fields.  (4) A nil slice is NULL the first time and a
nil slice later. -/
theorem C89_refuted :
    (run demo (fun _ => bs "f") (.start fun _ _ => some ⟨2, 7⟩)
      [.eval 0 0 (), .register 0 (bs "f") ⟨2, 8⟩, .eval 0 0 (), .eval 0 1 ()]).1 =
        [(0, .val 7), (0, .val 7), (1, .val 8)] ∧
    (run demo (fun _ => bs "f") (.start fun s _ => some ⟨2, s⟩) [.eval 5 0 (), .eval 6 0 ()]).1 =
        [(0, .val 5), (0, .val 5)] ∧
    (run demo (fun _ => bs "f") (.start fun _ _ => some ⟨0, 7⟩) [.eval 0 0 ()]).1 = [(0, .val 0)] ∧
    (run demo (fun _ => bs "f") (.start fun _ _ => some ⟨1, 7⟩) [.eval 0 0 (), .eval 0 0 ()]).1 =
        [(0, .null), (0, .typedNil)] := by
  refine ⟨?_, ?_, ?_, ?_⟩ <;> rfl

example : callsAt (A := Unit) (fun _ => bs "f") 0 (fun _ _ => some (⟨2, 7⟩ : Fn Nat Nat)) [.eval 0 1 (), .eval 0 0 ()] =
    [(some ⟨2, 7⟩, ())] := rfl

/-- A function with `Copy` that returns its field. -/
example : Steady demo ⟨2, 7⟩ := ⟨fun _ => rfl, rfl, fun _ => by simp [demo]⟩

example : outsOf 0 (run demo (fun _ => bs "f") (.start fun s _ => if s = 9 then none else some ⟨2, 7⟩)
    [.eval 0 0 (), .eval 9 0 (), .eval 0 1 (), .eval 3 0 ()]).1 = [.val 7, .missing, .val 7] := rfl

end Vfilter.CallSite
