import Verif.Funcs
import Verif.Normalize
import Verif.ODLemmas
import Verif.Text
import Verif.Props.Collections
import Verif.Props.ScopeVars
import Verif.Props.Conc
import Verif.Props.Normalize
import Mathlib.Data.List.Basic

/-!
# C57 (lambdas), C59 (materialized queries), C61 (value functions)
-/

set_option linter.all false

namespace Vfilter

/-! ## C57 -/

section
variable {V : Type}

theorem lambdaVars_get : ∀ (ps : List Str) (vs : List V) (d : OD V) (x : Str), x ∉ ps →
    OD.get (lambdaVars ps vs d) x = OD.get d x := by
  intro ps
  induction ps with
  | nil => intro vs d x _; cases vs <;> rfl
  | cons p ps ih =>
    intro vs d x hx
    simp only [List.mem_cons, not_or] at hx
    cases vs with
    | nil => rfl
    | cons v vs =>
      simp only [lambdaVars]
      rw [ih vs _ x hx.2, OD.get_set_ne _ _ (by first | exact hx.1 | exact fun h => hx.1 h.symm)]

theorem lambdaVars_nth : ∀ (ps : List Str) (vs : List V) (d : OD V) (i : Nat) (p : Str) (v : V),
    ps.Nodup → ps[i]? = some p → vs[i]? = some v → OD.get (lambdaVars ps vs d) p = some v := by
  intro ps
  induction ps with
  | nil => intro vs d i p v _ h; simp at h
  | cons q ps ih =>
    intro vs d i p v hn hp hv
    rw [List.nodup_cons] at hn
    cases vs with
    | nil => simp at hv
    | cons w vs =>
      cases i with
      | zero =>
        simp only [List.getElem?_cons_zero, Option.some.injEq] at hp hv
        subst hp; subst hv
        simp only [lambdaVars]
        rw [lambdaVars_get ps vs _ q hn.1, OD.get_set_self]
      | succ i =>
        simp only [List.getElem?_cons_succ] at hp hv
        exact ih vs _ i p v hn.2 hp hv

end

/-- Variable sets that are dicts: looking up a name is looking up the key. -/
def DictRows {R V : Type} (assoc : R → Str → Option V × Bool) (mk : OD V → R) : Prop :=
  ∀ d k, assoc (mk d) k = (OD.get d k, (OD.get d k).isSome)

section
variable {R V W : Type} [Inhabited R]

/-- C57: on as many values as (distinct) parameters the body runs once, in a new scope in which the
i-th parameter is the i-th value, every other name is what it is in the calling scope, and the calling
scope is as before.  The body is any function of heap and scope, the heap any reachable one. -/
theorem C57_apply (grow : Nat → Nat) (assoc : R → Str → Option V × Bool) (nul : V) (mk : OD V → R)
    (hmk : DictRows assoc mk) (nulW : W) (params : List Str) (args : List V)
    (hn : params.Nodup) (hlen : params.length = args.length) (body : Heap R V → Nat → W)
    (ops : List (SOp R V)) (s : Nat) (r : ScopeRec) (hr : (Heap.run grow ops).scopes[s]? = some r)
    (hd : r.depth + 1 < 1000) :
    ∃ h' sub, lambdaReduce grow mk nulW params body (Heap.run grow ops) s args = body h' sub ∧
      (∀ (i : Nat) p v, params[i]? = some p → args[i]? = some v → h'.resolve assoc nul sub p = (some v, true)) ∧
      (∀ x, x ∉ params → h'.resolve assoc nul sub x = (Heap.run grow ops).resolve assoc nul s x) ∧
      (∀ x, h'.resolve assoc nul s x = (Heap.run grow ops).resolve assoc nul s x) := by
  have hs : s < (Heap.run grow ops).scopes.length := getElem?_lt hr
  set n := (Heap.run grow ops).scopes.length with hnn
  set x := mk (lambdaVars params args []) with hx
  have hrun : (((Heap.run grow ops).copy s).appendVars grow n x) =
      Heap.run grow (ops ++ .copy s :: [.append n x]) := by
    simp [Heap.run, List.foldl_append, Heap.step]
  have hsub : ∃ r', (Heap.run grow (ops ++ .copy s :: [.append n x])).scopes[n]? = some r' ∧
      r'.depth = r.depth + 1 := by
    rw [← hrun]
    simp only [Heap.copy, hr, Heap.appendVars]
    have hl : (List.set (Heap.run grow ops).scopes s
      { r with children := (if r.garbage > 10 then r.children.filter (·.isSome) else r.children) ++ [some n]
               garbage := if r.garbage > 10 then 0 else r.garbage }).length = n := by simp [hnn]
    simp [hnn]
  have hout : ∃ r', (Heap.run grow (ops ++ .copy s :: [.append n x])).scopes[s]? = some r' ∧
      r'.depth = r.depth := by
    rw [← hrun]
    have hne : n ≠ s := by omega
    simp only [Heap.copy, hr, Heap.appendVars]
    simp [← hnn, List.getElem?_append_left, hs, List.getElem?_set, hne]
  obtain ⟨r1, h1, hd1⟩ := hsub
  obtain ⟨r2, h2, hd2⟩ := hout
  have hview := C19_copy grow ops [.append n x] s r r1 hr h1
  have hview2 := C19_isolated grow ops (.copy s :: [.append n x]) s r r2 hr h2
  have hne : n ≠ s := by omega
  simp only [appendedTo, ← hnn, if_pos] at hview
  simp only [appendedTo, if_neg hne, List.append_nil] at hview2
  refine ⟨Heap.run grow (ops ++ .copy s :: [.append n x]), n, ?_, ?_, ?_, ?_⟩
  · simp only [lambdaReduce, hlen, ne_eq, not_true_eq_false, if_false]
    rw [← hnn, ← hx, hrun]
  · intro i p v hp hv
    rw [(C18_scope_resolve assoc nul _ n r1 h1 p).1 (by omega), hview]
    have hg := lambdaVars_nth params args [] i p v hn hp hv
    have := (C18_resolve assoc nul ((Heap.run grow ops).view r.vars ++ [x]) p).1
      ((Heap.run grow ops).view r.vars) x [] (some v) rfl (by rw [hx, hmk, hg]; rfl) (by simp)
    simpa using this
  · intro y hy
    rw [(C18_scope_resolve assoc nul _ n r1 h1 y).1 (by omega), hview,
      (C18_scope_resolve assoc nul _ s r hr y).1 (by omega)]
    have hg : OD.get (lambdaVars params args []) y = none := by
      rw [lambdaVars_get _ _ _ _ hy]; rfl
    simp only [resolveVars, List.reverse_append, List.reverse_cons, List.reverse_nil, List.nil_append,
      List.singleton_append, resolveLoop]
    rw [hx, hmk, hg]
    simp
  · intro y
    rw [(C18_scope_resolve assoc nul _ s r2 h2 y).1 (by omega), hview2,
      (C18_scope_resolve assoc nul _ s r hr y).1 (by omega)]

/-- C57: any other number of values gives NULL, and the body does not run. -/
theorem C57_arity (grow : Nat → Nat) (mk : OD V → R) (nulW : W) (params : List Str) (args : List V)
    (hlen : params.length ≠ args.length) (body : Heap R V → Nat → W) (h : Heap R V) (s : Nat) :
    lambdaReduce grow mk nulW params body h s args = nulW := by
  simp [lambdaReduce, hlen]

end

instance : Inhabited (OD Nat) := ⟨[]⟩

/-- Dict variable sets of numbers, for examples. -/
def exAssoc (d : OD Nat) (k : Str) : Option Nat × Bool := (OD.get d k, (OD.get d k).isSome)

example : DictRows exAssoc id := fun _ _ => rfl
example : (Heap.run (fun _ => 0) [.new [], .append 0 [(bs "x", 7)]] : Heap (OD Nat) Nat).scopes[0]? ≠ none := by
  decide
example : lambdaReduce (fun _ => 0) id 0 [bs "a", bs "b"]
    (fun h s => 10 * ((h.resolve exAssoc 0 s (bs "a")).1.getD 0) + ((h.resolve exAssoc 0 s (bs "b")).1.getD 0) +
      100 * ((h.resolve exAssoc 0 s (bs "x")).1.getD 0))
    (Heap.run (fun _ => 0) [.new [], .append 0 [(bs "x", 7)]] : Heap (OD Nat) Nat) 0 [1, 2] = 712 := by
  decide

/-- With a repeated parameter name the last value wins, so the first position is not bound: `(a, a) => a`
on 1, 2 is 2. -/
theorem C57_repeated_refuted :
    lambdaReduce (fun _ => 0) id 0 [bs "a", bs "a"] (fun h s => (h.resolve exAssoc 0 s (bs "a")).1.getD 0)
      (Heap.run (fun _ => 0) [.new []] : Heap (OD Nat) Nat) 0 [1, 2] = 2 := by
  decide

/-- `GetParameters` (lambda.go:23-38) keeps a parameter's quotes while symbols in the body lose them
(`SplitIdent`, vfilter.go:1742): the lambda whose parameter is written in backquotes does not see its
value. -/
theorem C57_quoted_refuted :
    lambdaReduce (fun _ => 0) id 99 [bs "`a b`"]
      (fun h s => (h.resolve exAssoc 0 s ((splitIdent (bs "`a b`")).headD [])).1.getD 0)
      (Heap.run (fun _ => 0) [.new []] : Heap (OD Nat) Nat) 0 [5] = 0 := by
  decide +kernel

/-! ## C59 -/

/-- What a reader has got so far, in any state reachable for it. -/
def EmitOk {R : Type} (rows : List R) (e : EmitSt R) : Prop :=
  e.out ++ e.rest = rows ∧ (e.closed = true → e.cancelled = false → e.rest = [])

/-- C59: whatever readers there are and however they interleave, each gets a prefix of the same row list,
and the whole list when it finishes without being cancelled. -/
theorem C59_readers {R : Type} (rows : List R) (m : MatSt R) (h : Steps MatStep ⟨rows, []⟩ m) :
    m.rows = rows ∧ ∀ e ∈ m.readers, e.out <+: rows ∧
      (e.closed = true → e.cancelled = false → e.out = rows) := by
  have key : m.rows = rows ∧ ∀ e ∈ m.readers, EmitOk rows e := by
    refine Steps.inv (I := fun m : MatSt R => m.rows = rows ∧ ∀ e ∈ m.readers, e.out ++ e.rest = rows ∧
      (e.closed = true → e.cancelled = false → e.rest = [])) ?_ h ⟨rfl, by simp⟩
    rintro b s t ⟨hr, hi⟩ hst
    cases hst with
    | eval =>
      refine ⟨hr, ?_⟩
      intro e he
      rcases List.mem_append.1 he with he | he
      · exact hi e he
      · simp only [List.mem_singleton] at he; subst he; simp [hr]
    | @run _ _ i e e' hg hst =>
      refine ⟨hr, ?_⟩
      intro x hx
      rcases List.mem_or_eq_of_mem_set hx with hx | hx
      · exact hi x hx
      · subst hx
        have := hi e (List.mem_of_getElem? hg)
        cases hst <;> simp_all
  refine ⟨key.1, fun e he => ?_⟩
  obtain ⟨h1, h2⟩ := key.2 e he
  refine ⟨⟨e.rest, h1⟩, fun hc hk => ?_⟩
  have := h2 hc hk
  rw [this, List.append_nil] at h1
  exact h1

/-- C59: a reader that is read always finishes, and a cancelled one finishes unread. -/
theorem C59_finishes {R : Type} (e : EmitSt R) :
    Inevitable Read EmitStep (fun e => e.closed = true) e ∧
    (e.cancelled = true → Inevitable Unread EmitStep (fun e => e.closed = true) e) := by
  have hμ : ∀ b (s t : EmitSt R), EmitStep b s t →
      (2 * t.rest.length + (if t.closed then 0 else 1) + (if t.cancelled then 0 else 1)) <
      (2 * s.rest.length + (if s.closed then 0 else 1) + (if s.cancelled then 0 else 1)) := by
    intro b s t h
    cases h <;> simp <;> (repeat' split) <;> omega
  constructor
  · refine Inevitable.measure (I := fun _ => True) _ (fun _ _ _ _ _ => trivial) (fun b s t _ h => hμ b s t h) ?_ trivial
    intro s _ hP
    obtain ⟨rest, out, c, cl⟩ := s
    have : cl = false := by simpa using hP
    subst this
    cases rest with
    | nil => exact ⟨_, _, .inl rfl, .finish⟩
    | cons r rs => exact ⟨_, _, .inr (.inr rfl), .send⟩
  · intro hc
    refine Inevitable.measure (I := fun s => s.cancelled = true) _ ?_ (fun b s t _ h => hμ b s t h) ?_ hc
    · intro b s t hI h
      cases h <;> simp_all
    · intro s hI hP
      obtain ⟨rest, out, c, cl⟩ := s
      have : cl = false := by simpa using hP
      simp only at hI
      subst this; subst hI
      cases rest with
      | nil => exact ⟨_, _, .inl rfl, .finish⟩
      | cons r rs => exact ⟨_, _, .inl rfl, .abort⟩

example : ∃ m : MatSt Nat, Steps MatStep ⟨[1, 2], []⟩ m ∧
    m.readers = [⟨[], [1, 2], false, true⟩, ⟨[2], [1], true, true⟩] := by
  refine ⟨⟨[1, 2], [⟨[], [1, 2], false, true⟩, ⟨[2], [1], true, true⟩]⟩, ?_, rfl⟩
  have h0 : Steps MatStep (⟨[1, 2], []⟩ : MatSt Nat) ⟨[1, 2], []⟩ := .refl
  have h1 := Steps.tail h0 .eval
  have h2 := Steps.tail h1 .eval
  have h3 := Steps.tail h2 (.run (i := 0) rfl .send)
  have h4 := Steps.tail h3 (.run (i := 1) rfl .send)
  have h5 := Steps.tail h4 (.run (i := 0) rfl .send)
  have h6 := Steps.tail h5 (.run (i := 1) rfl .cancel)
  have h7 := Steps.tail h6 (.run (i := 1) rfl .abort)
  have h8 := Steps.tail h7 (.run (i := 0) rfl .finish)
  exact h8

section
variable {F X : Type} [LawfulFloat F]

/-- C59: materializing keeps the rows delivered, in order. -/
theorem C59_materialize (rows : List (Val F X)) : materialize rows = rows := by
  have : ∀ (l acc : List (Val F X)), l.foldl (fun result item => result ++ [item]) acc = acc ++ l := by
    intro l
    induction l with
    | nil => simp
    | cons a l ih => intro acc; simp [ih]
  simpa [materialize] using this rows []

/-- C59: indexing a materialized query gives the row at that position of the list (from the end when
negative; missing when out of range), slicing the slice of the list, a column the members of the rows,
and `len` of its value the number of rows. -/
theorem C59_index (W : World F X) (rows : List (Val F X)) (hlen : rows.length < 2 ^ 63) :
    (∀ i : I64, NoAssoc W (.query rows) (.val (.int i)) → NoAssoc W (.arr rows) (.val (.int i)) →
      matAssoc W rows (.val (.int i)) =
        match pyIndex rows i.toInt with
        | some v => (v, true)
        | none => (.null, false)) ∧
    (∀ s e, NoAssoc W (.query rows) (.range s e) → NoAssoc W (.arr rows) (.range s e) →
      matAssoc W rows (.range s e) =
        (.arr (pySlice rows (s.map BitVec.toInt) (e.map BitVec.toInt)), true)) ∧
    (∀ k, matAssoc W rows (.val (.str k)) = (.arr (rows.map (fun x =>
        if (assocV W x (.val (.str k))).2 then (assocV W x (.val (.str k))).1 else .null)), true)) ∧
    (∀ goLen, lenF goLen (.arr (materialize rows)) = rows.length) := by
  refine ⟨?_, ?_, ?_, ?_⟩
  · intro i hq ha
    simp only [matAssoc, hq.search]
    exact (C12_index W (.int i) i rfl).1 rows hlen ha
  · intro s e hq ha
    simp only [matAssoc, hq.search]
    exact (C11_slice W s e).2 rows hlen ha
  · intro k
    have := (C13_columns W k).2.1 rows
    simpa [matAssoc, assocV, assocStr] using this
  · intro g
    rw [C59_materialize]; rfl

end

example : matAssoc ({} : World F64 Unit) [.int 1, .int 2, .int 3] (.val (.int (i64 (-1)))) = (.int 3, true) := by
  rw [(C59_index _ _ (by decide)).1 _ (by simp [NoAssoc]) (by simp [NoAssoc])]; rfl
example : matAssoc ({} : World F64 Unit) [.int 1, .int 2, .int 3] (.range (some 1) none) = (.arr [.int 2, .int 3], true) := by
  rw [(C59_index _ _ (by decide)).2.1 _ _ (by simp [NoAssoc]) (by simp [NoAssoc])]; rfl

/-! ## C61 -/

section
variable {F X : Type} [LawfulFloat F]

/-- C61: `len` counts array elements, string bytes and dict keys (also of host maps, slices and
strings) and is 0 for everything else. -/
theorem C61_len (goLen : X → Option Nat) :
    (∀ l : List (Val F X), lenF goLen (.arr l) = l.length) ∧
    (∀ s : Str, lenF goLen (.str s : Val F X) = s.length) ∧
    (∀ d : List (Str × Val F X), lenF goLen (.dict d) = (OD.keys d).length) ∧
    (∀ x n, goLen x = some n → lenF goLen (.obj x : Val F X) = n) ∧
    (∀ v : Val F X, (∀ l, v ≠ .arr l) → (∀ s, v ≠ .str s) → (∀ d, v ≠ .dict d) →
      (∀ x n, v = .obj x → goLen x ≠ some n) → lenF goLen v = 0) := by
  refine ⟨fun _ => rfl, fun _ => rfl, fun d => by simp [lenF, OD.keys], fun x n h => by simp [lenF, h], ?_⟩
  intro v h1 h2 h3 h4
  cases v with
  | obj x =>
    cases hg : goLen x with
    | none => simp [lenF, hg]
    | some n => exact absurd hg (h4 x n rfl)
  | arr l => exact absurd rfl (h1 l)
  | str s => exact absurd rfl (h2 s)
  | dict d => exact absurd rfl (h3 d)
  | _ => rfl

/-- Following a path of keys through nested dicts. -/
def lookPath : Val F X → List Str → Option (Val F X)
  | v, [] => some v
  | .dict d, k :: ks => match OD.get d k with
    | some v => lookPath v ks
    | none => none
  | _, _ :: _ => none

/-- Components joined by dots. -/
def joinDot : List Str → Str
  | [] => []
  | [a] => a
  | a :: b :: r => a ++ 46 :: joinDot (b :: r)

theorem splitDotAux_noDot : ∀ (a cur : Str), (46 : UInt8) ∉ a → splitDotAux cur a = [cur ++ a] := by
  intro a
  induction a with
  | nil => intro cur _; simp [splitDotAux]
  | cons c r ih =>
    intro cur h
    simp only [List.mem_cons, not_or] at h
    simp only [splitDotAux, if_neg (fun hh : c = 46 => h.1 hh.symm)]
    rw [ih _ h.2]; simp

theorem splitDotAux_dot : ∀ (a cur rest : Str), (46 : UInt8) ∉ a →
    splitDotAux cur (a ++ 46 :: rest) = (cur ++ a) :: splitDotAux [] rest := by
  intro a
  induction a with
  | nil => intro cur rest _; simp [splitDotAux]
  | cons c r ih =>
    intro cur rest h
    simp only [List.mem_cons, not_or] at h
    simp only [List.cons_append, splitDotAux, if_neg (fun hh : c = 46 => h.1 hh.symm)]
    rw [ih _ _ h.2]; simp

theorem splitDot_join : ∀ (path : List Str), path ≠ [] → (∀ k ∈ path, (46 : UInt8) ∉ k) →
    splitDot (joinDot path) = path := by
  intro path
  induction path with
  | nil => intro h; exact absurd rfl h
  | cons a r ih =>
    intro _ h
    cases r with
    | nil => simpa [splitDot, joinDot] using splitDotAux_noDot a [] (h a (by simp))
    | cons b r =>
      have := ih (by simp) (fun k hk => h k (by simp [hk]))
      simp only [splitDot, joinDot] at *
      rw [splitDotAux_dot a [] _ (h a (by simp)), this]; simp

/-- A key `get` looks up as a name: it does not read as an integer, has no dot and is not the name of
a method of dicts. -/
def PlainKey (k : Str) : Prop := (46 : UInt8) ∉ k ∧ atoi k = none ∧ k ∉ dictMethods

/-- C61: `get(item, member="k1.k2...")` on nested dicts is the value found by following the keys, and
NULL as soon as one is missing (there is no default argument). -/
theorem C61_get_partial (W : World F X) (item : Val F X) (path : List Str) (hne : path ≠ [])
    (hp : ∀ k ∈ path, PlainKey k)
    (hd : ∀ pre k post v, path = pre ++ k :: post → lookPath item pre = some v → ∃ d, v = .dict d) :
    getF W item (joinDot path) = (lookPath item path).getD .null := by
  simp only [getF]
  rw [splitDot_join path hne (fun k hk => (hp k hk).1)]
  clear hne
  induction path generalizing item with
  | nil => simp [getLoop, lookPath]
  | cons k ks ih =>
    obtain ⟨d, rfl⟩ := hd [] k ks item rfl (by simp [lookPath])
    have hk := hp k (by simp)
    have hstep : getStep W (.dict d) k = OD.get d k := by
      simp only [getStep, hk.2.1]
      simp only [assocV]
      cases h : OD.get d k <;> simp_all [assocStr, hk.2.2]
    simp only [getLoop, hstep, lookPath]
    cases h : OD.get d k with
    | none => simp
    | some v =>
      simp only
      refine ih v (fun k' hk' => hp k' (by simp [hk'])) ?_
      intro pre k' post v' e hv'
      exact hd (k :: pre) k' post v' (by simp [e]) (by simp [lookPath, h, hv'])

/-- C61: as soon as any step of the path is missing the result is NULL, whatever the values. -/
theorem C61_get_missing (W : World F X) (v : Val F X) (m : Str) (ms : List Str)
    (h : getStep W v m = none) : getLoop W v (m :: ms) = .null := by
  simp [getLoop, h]

/-- C61: one step of `get` is member access: by index if the component reads as an integer, else by
name. -/
theorem C61_get_steps (W : World F X) (v : Val F X) (m : Str) (ms : List Str) :
    getLoop W v [] = v ∧
    (∀ i, atoi m = some i → (assocV W v (.val (.int i))).2 = true →
      getLoop W v (m :: ms) = getLoop W (assocV W v (.val (.int i))).1 ms) ∧
    (atoi m = none → (assocV W v (.val (.str m))).2 = true →
      getLoop W v (m :: ms) = getLoop W (assocV W v (.val (.str m))).1 ms) := by
  refine ⟨rfl, ?_, ?_⟩
  · intro i h1 h2; simp [getLoop, getStep, h1, h2]
  · intro h1 h2; simp [getLoop, getStep, h1, h2]

theorem hexChar_inj : ∀ a b : Fin 16, hexChar a.val = hexChar b.val → a = b := by decide

theorem hexEncode_cons (c : UInt8) (s : Str) :
    hexEncode (c :: s) = hexChar (c.toNat / 16) :: hexChar (c.toNat % 16) :: hexEncode s := rfl

/-- C61: hex encoding has two characters per byte, all of them hex digits. -/
theorem C61_hex_length (s : Str) : (hexEncode s).length = 2 * s.length := by
  induction s with
  | nil => rfl
  | cons c s ih => rw [hexEncode_cons]; simp [ih]; omega

/-- C61: hex encoding is injective. -/
theorem C61_hex_injective (s t : Str) (h : hexEncode s = hexEncode t) : s = t := by
  induction s generalizing t with
  | nil =>
    cases t with
    | nil => rfl
    | cons c t => simp [hexEncode] at h
  | cons c s ih =>
    cases t with
    | nil => simp [hexEncode] at h
    | cons d t =>
      rw [hexEncode_cons, hexEncode_cons] at h
      simp only [List.cons.injEq] at h
      have hc := c.toNat_lt
      have hd := d.toNat_lt
      have h1 := hexChar_inj ⟨c.toNat / 16, by omega⟩ ⟨d.toNat / 16, by omega⟩ h.1
      have h2 := hexChar_inj ⟨c.toNat % 16, by omega⟩ ⟨d.toNat % 16, by omega⟩ h.2.1
      simp only [Fin.mk.injEq] at h1 h2
      have : c.toNat = d.toNat := by omega
      rw [UInt8.toNat_inj.1 this, ih t h.2.2]

/-- C61: `encode` of strings in hex. -/
theorem C61_encode (sprint : Val F X → Str) (s : Str) :
    encodeF sprint (.str s) (bs "hex") = .str (hexEncode s) ∧
    encodeF sprint (.str s) (bs "string") = .str s := by
  refine ⟨by simp [encodeF], ?_⟩
  have : bs "string" ≠ bs "hex" := by decide
  simp [encodeF, this]

/-- C61: `dict(k1=v1, ...)` (functions/functions.go:34-36, `RowToDict` of the arguments) has exactly the
given keys in the given order, each with its normalised value. -/
theorem C61_dict {L P : Type} (red : L → NV L P) (args : List (Str × NV L P)) (hn : (args.map (·.1)).Nodup) :
    rowToDict red (args.map (fun a => (a.1, some a.2))) = args.map (fun a => (a.1, normalize0 red a.2)) ∧
    OD.keys (rowToDict red (args.map (fun a => (a.1, some a.2)))) = args.map (·.1) := by
  have h := C60_columns red (args.map (fun a => (a.1, some a.2))) (by simpa [Function.comp_def] using hn)
  have : rowToDict red (args.map (fun a => (a.1, some a.2))) = args.map (fun a => (a.1, normalize0 red a.2)) := by
    rw [h, List.filterMap_map]
    clear h hn
    induction args with
    | nil => rfl
    | cons a l ih => simp [ih]
  refine ⟨this, ?_⟩
  rw [this]; simp [OD.keys, Function.comp_def]

end

example : getF ({} : World F64 Unit) (.dict [(bs "a", .dict [(bs "b", .int 5)])]) (bs "a.b") = .int 5 := by
  have := C61_get_partial ({} : World F64 Unit) (.dict [(bs "a", .dict [(bs "b", .int 5)])]) [bs "a", bs "b"]
    (by simp) (by
      intro k hk
      simp only [List.mem_cons, List.not_mem_nil, or_false] at hk
      rcases hk with rfl | rfl <;> exact ⟨by decide, by decide, by decide⟩) (by
      intro pre k post v e hv
      match pre, e with
      | [], e => simp [lookPath] at hv; exact ⟨_, hv.symm⟩
      | [x], e =>
        simp at e
        obtain ⟨rfl, _⟩ := e
        simp [lookPath, OD.get] at hv
        exact ⟨_, hv.symm⟩
      | x :: y :: r, e => simp at e)
  exact this

/-- `get(item=dict(`1`=5), member="1")`: a key that reads as an integer cannot be reached. -/
theorem C61_get_refuted :
    getF ({} : World F64 Unit) (.dict [(bs "1", .int 5)]) (bs "1") = .null ∧
    lookPath (.dict [(bs "1", .int 5)] : Val F64 Unit) [bs "1"] = some (.int 5) := by
  constructor <;> rfl

end Vfilter
