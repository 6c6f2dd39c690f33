import Verif.EvalFrame
/-!
# Looking up names in scopes made of dictionaries
-/
set_option linter.all false

namespace Vfilter.Vql

section
variable {F S : Type}

/-- What a dictionary answers for a key. -/
def dictAns (d : OD (V F)) (k : Str) : Option (V F) × Bool := (OD.get d k, (OD.get d k).isSome)

/-- The value of a name in a list of dictionaries, the last one first. -/
def lookup (ds : List (OD (V F))) (k : Str) : Option (V F) := (ds.reverse.findSome? (fun d => OD.get d k))

/-- `k` is not the name of a built-in dictionary method such as `@Items`. -/
def PlainKey (k : Str) : Prop := dictMethods.contains k = false

variable [FloatOps F] {H : Host F S}

theorem runs_assoc_dict {d : OD (V F)} {k : Str} {s : Nat} {st st' : St F S} {r : Option (V F) × Bool}
    (hk : PlainKey k) :
    Runs H (call (.assoc (.dict d) (.val (.str k)) s)) st r st' ↔ r = dictAns d k ∧ st' = st := by
  rw [runs_call]
  unfold PlainKey at hk
  simp only [body, assocStrP, hk, Bool.false_eq_true, if_false, dictAns]
  cases OD.get d k <;> simp

theorem runs_assoc_null {k : Str} {s : Nat} {st st' : St F S} {r : Option (V F) × Bool} :
    Runs H (call (.assoc .null (.val (.str k)) s)) st r st' ↔ r = (some .null, true) ∧ st' = st := by
  rw [runs_call]
  simp [body, assocStrP]

theorem runs_assoc_scope {i : Nat} {k : Str} {s : Nat} {st st' : St F S} {r : Option (V F) × Bool} :
    Runs H (call (.assoc (.obj (.scope i)) (.val (.str k)) s)) st r st' ↔
      Runs H (call (.resolve i k)) st r st' := by
  conv => lhs; rw [runs_call]
  simp only [body, assocStrP]

theorem runs_assoc_row {c : Nat} {k : Str} {s : Nat} {st st' : St F S} {r : Option (V F) × Bool} :
    Runs H (call (.assoc (.obj (.row c)) (.val (.str k)) s)) st r st' ↔
      Runs H (call (.rowGet c k)) st r st' := by
  conv => lhs; rw [runs_call]
  simp only [body, assocStrP]

theorem runs_members_dict {d : OD (V F)} {s : Nat} {st st' : St F S} {r : List Str} :
    Runs H (call (.members (.dict d) s)) st r st' ↔ r = OD.keys d ∧ st' = st := by
  rw [runs_call]
  simp only [body]
  exact runs_pure

/-- `Resolve` in a scope that is not too deep. -/
theorem runs_resolve {s : Nat} {k : Str} {st st' : St F S} {r : Option (V F) × Bool}
    (hd : (st.scp s).depth < 1000) :
    Runs H (call (.resolve s k)) st r st' ↔
      Runs H (resolveLoopP s k none (st.scp s).vars.reverse) st r st' := by
  have ho : overflow (st.scp s).depth = false := by simp [overflow]; omega
  conv => lhs; rw [runs_call]
  simp only [body]
  rw [runs_pb]
  simp only [Prim.step, ho, Bool.false_eq_true, if_false]
  exact runs_pb

/-- Beyond the overflow limit nothing resolves. -/
theorem runs_resolve_deep {s : Nat} {k : Str} {st st' : St F S} {r : Option (V F) × Bool}
    (hd : 1000 ≤ (st.scp s).depth) :
    Runs H (call (.resolve s k)) st r st' ↔ r = (some .null, false) ∧ st' = st := by
  have ho : overflow (st.scp s).depth = true := by simp [overflow]; omega
  conv => lhs; rw [runs_call]
  simp only [body]
  rw [runs_pb]
  simp only [Prim.step, ho, if_true]
  exact runs_pure

theorem runs_resolveLoop_cons {s : Nat} {k : Str} {d : Option (V F)} {v : V F} {l : List (V F)}
    {st st' : St F S} {r : Option (V F) × Bool} :
    Runs H (resolveLoopP s k d (v :: l)) st r st' ↔
      ∃ (e : Option (V F)) (b : Bool) (s1 : St F S),
        Runs H (call (.assoc v (.val (.str k)) s)) st (e, b) s1 ∧
        if b then r = (some (e.getD .null), true) ∧ st' = s1
        else Runs H (resolveLoopP s k (if e.isSome && d.isNone then e else d) l) s1 r st' := by
  simp only [resolveLoopP, runs_bind]
  constructor
  · rintro ⟨⟨e, b⟩, s1, h1, h2⟩
    refine ⟨e, b, s1, h1, ?_⟩
    cases b
    · simpa using h2
    · simpa using h2
  · rintro ⟨e, b, s1, h1, h2⟩
    refine ⟨(e, b), s1, h1, ?_⟩
    cases b
    · simpa using h2
    · simpa using h2

theorem resolveLoop_dicts {s : Nat} {k : Str} (hk : PlainKey k) {st st' : St F S}
    {r : Option (V F) × Bool} : ∀ (ds : List (OD (V F))),
    Runs H (resolveLoopP s k none (ds.map .dict)) st r st' ↔
      r = (ds.findSome? (fun d => OD.get d k), (ds.findSome? (fun d => OD.get d k)).isSome) ∧ st' = st
  | [] => by simp [resolveLoopP]
  | d :: ds => by
    rw [List.map_cons, runs_resolveLoop_cons]
    simp only [runs_assoc_dict hk, dictAns, Prod.mk.injEq]
    constructor
    · rintro ⟨e, b, s1, ⟨⟨rfl, rfl⟩, rfl⟩, h⟩
      cases hg : OD.get d k with
      | none =>
        simp only [hg, Option.isSome_none, Bool.false_eq_true, if_false, Bool.false_and] at h
        rw [resolveLoop_dicts hk ds] at h
        simpa [List.findSome?_cons, hg] using h
      | some v =>
        simp only [hg, Option.isSome_some, if_true] at h
        simpa [List.findSome?_cons, hg] using h
    · rintro ⟨rfl, rfl⟩
      refine ⟨_, _, _, ⟨⟨rfl, rfl⟩, rfl⟩, ?_⟩
      cases hg : OD.get d k with
      | none =>
        simp only [Option.isSome_none, Bool.false_eq_true, if_false, Bool.false_and]
        rw [resolveLoop_dicts hk ds]
        simp [List.findSome?_cons, hg]
      | some v => simp [List.findSome?_cons, hg]

/-- In a scope whose variable sets are dictionaries a name refers to the last one that has
it. -/
theorem resolve_dicts {s : Nat} {k : Str} (hk : PlainKey k) {st st' : St F S}
    {r : Option (V F) × Bool} {ds : List (OD (V F))} (hd : (st.scp s).depth < 1000)
    (hv : (st.scp s).vars = ds.map .dict) :
    Runs H (call (.resolve s k)) st r st' ↔ r = (lookup ds k, (lookup ds k).isSome) ∧ st' = st := by
  rw [runs_resolve hd, hv, ← List.map_reverse, resolveLoop_dicts hk]
  rfl

omit [FloatOps F] in
theorem lookup_append {ds es : List (OD (V F))} {k : Str} :
    lookup (ds ++ es) k = (lookup es k).or (lookup ds k) := by
  simp [lookup, List.findSome?_append]

omit [FloatOps F] in
@[simp] theorem lookup_singleton {d : OD (V F)} {k : Str} : lookup [d] k = OD.get d k := by
  simp [lookup, List.findSome?_cons]
  cases OD.get d k <;> rfl

omit [FloatOps F] in
@[simp] theorem lookup_nil {k : Str} : lookup ([] : List (OD (V F))) k = none := rfl

/-- Walking a name of one component from the scope. -/
theorem runs_walk_one {s : Nat} {c : Str} {st st' : St F S} {r : Option (V F)} :
    Runs H (walkP s true (.obj (.scope s)) [c]) st r st' ↔
      ∃ (e : Option (V F)) (b : Bool) (s1 : St F S), Runs H (call (.resolve s c)) st (e, b) s1 ∧
        if b then r = some (e.getD .null) ∧ st' = s1
        else r = none ∧ st' = { s1 with log := s1.log ++ [bs "ERROR: not found " ++ c] } := by
  simp only [walkP, runs_bind]
  constructor
  · rintro ⟨⟨e, b⟩, s1, h1, h2⟩
    refine ⟨e, b, s1, runs_assoc_scope.1 h1, ?_⟩
    cases b
    · exact runs_pure.1 (runs_pb.1 h2)
    · simpa using h2
  · rintro ⟨e, b, s1, h1, h2⟩
    refine ⟨(e, b), s1, runs_assoc_scope.2 h1, ?_⟩
    cases b
    · exact runs_pb.2 (runs_pure.2 h2)
    · simpa using h2

/-- The scope of a copy. -/
theorem copy_scp {s : Nat} {st : St F S} :
    ((Prim.copy s : Prim F S).step st).2.scp st.scopes.length
      = ⟨(st.scp s).vars, (st.scp s).depth + 1, some s, none⟩ := by
  simp [Prim.step, St.scp]

end
end Vfilter.Vql
