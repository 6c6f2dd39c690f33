import Verif.UpLow
import Verif.RoundWhole
import Verif.EvalSelect
import Verif.ODLemmas
/-!
# Checkpoints of a scope

`Scope.Marshal` and `ScopeUnmarshaller.Unmarshal` (scope/marshal.go), with the marshallers of
values (marshal/marshaller.go), of LET definitions (marshal.go) and their inverses.

Simplifications.  The JSON text of a plain value is left to a codec: `encoding/json` and the JSON
methods of `ordereddict` are library code.  The text of a definition is kept as text; its JSON
encoding is a string and is assumed to be decoded as the same string.  A Go map is iterated in any
order, so the list of items can be permuted between writing and reading.  A scope inside a scope (a
variable whose value is a scope, type "Scope" again) is left to the codec.  The syntax nodes made
by reading a definition are numbered from a given number.
-/
set_option linter.all false

namespace Vfilter.Vql
open Fmt (CAnd CSelect CLetBody CStmt upAnd upSelect formatAnd formatSelect parse lowStmt)

/-- JSON, as used here: what is written for a value, and what is read from it as an `interface{}`
or as an `*ordereddict.Dict`. -/
structure Codec (F J : Type) where
  enc : V F → Option J
  dec : J → Option (V F)
  decDict : J → Option (V F)

/-- `types.MarshalItem` (types/marshal.go): the type names are "Replay", "OrderedDict" and "JSON". -/
inductive MItem (J : Type) where
  | replay (text : Str)
  | dict (data : J)
  | json (data : J)

/-- `strings.Join(l, ", ")` -/
def commaJoin : List Str → Str
  | [] => []
  | [x] => x
  | x :: y :: r => x ++ bs ", " ++ commaJoin (y :: r)

/-- The text of a definition, `_StoredQuery.Marshal` and `StoredExpression.Marshal`
(marshal.go:20-59).  The parameters are nil exactly if there are none (vfilter.go:530-543). -/
def defText (name : Str) (params : List Str) (body : Str) : Str :=
  if params.isEmpty then bs "LET `" ++ name ++ bs "` = " ++ body
  else bs "LET `" ++ name ++ bs "`(" ++ commaJoin params ++ bs ") = " ++ body

section
variable {F S J : Type}

/-- `marshal.Marshal` (marshal/marshaller.go:11-56). -/
def marshalValue (num : Str → Str) (C : Codec F J) : V F → Option (MItem J)
  | .obj (.sexpr e) => some (.replay (defText e.name e.params (formatAnd num (upAnd e.body))))
  | .obj (.squery q) => some (.replay (defText q.name q.params (formatSelect num (upSelect q.query))))
  | .dict d => (C.enc (.dict d)).map .dict
  | v => (C.enc v).map .json

/-- The names that are left out (scope/marshal.go:27-33). -/
def skipped (k : Str) : Bool :=
  k.take 1 == bs "$" || k == bs "NULL" || k == bs "config" || k == bs "Artifact"

/-- The body of the loop over the members of one set of variables (scope/marshal.go:26-47); an
error ends it. -/
def marshalStepP (num : Str → Str) (C : Codec F J) (s : Nat) (acc : Option (OD (MItem J))) (k : Str) :
    Prog F S (Option (OD (MItem J))) :=
  match acc with
  | none => pure none
  | some items =>
    if skipped k then pure (some items)
    else do
      let (v, pres) ← call (.resolve s k)
      if pres then
        pure ((marshalValue num C (v.getD .null)).map (OD.set items k))
      else pure (some items)

/-- The loops of `Scope.Marshal` (scope/marshal.go:19-55). -/
def marshalP (num : Str → Str) (C : Codec F J) (s : Nat) : Prog F S (Option (OD (MItem J))) := do
  let vars ← prim (.vars s)
  foldP (fun acc v => do
    let ks ← call (.members v s)
    foldP (marshalStepP num C s) acc ks) (some []) vars

variable [FloatOps F] (H : Host F S)

/-- `ReplayUnmarshaller.Unmarshal` (marshal.go:61-81): a statement that can not be parsed is an
error, which the caller only reports.  The result is always nil. -/
def replayP (lim : Str → Option Int) (text : Str) (ns node : Nat) : Prog F S Nat :=
  match parse lim text with
  | none => pure node
  | some t => do
    let _ ← stmtP H (lowStmt t node).1 ns
    pure (lowStmt t node).2

/-- Stores a decoded value unless it is nil. -/
def keepValue (env : OD (V F)) (k : Str) : Option (V F) → OD (V F)
  | none => env
  | some v => if v.isNil then env else OD.set env k v

/-- The body of the loop of `ScopeUnmarshaller.Unmarshal` (scope/marshal.go:73-88). -/
def unmarshalStepP (lim : Str → Option Int) (C : Codec F J) (ign : List Str) (ns : Nat)
    (acc : OD (V F) × Nat) (p : Str × MItem J) : Prog F S (OD (V F) × Nat) :=
  if ign.contains p.1 then pure acc
  else match p.2 with
    | .replay text => do
      let n ← replayP H lim text ns acc.2
      pure (acc.1, n)
    | .dict j => pure (keepValue acc.1 p.1 (C.decDict j), acc.2)
    | .json j => pure (keepValue acc.1 p.1 (C.dec j), acc.2)

/-- `ScopeUnmarshaller.Unmarshal` (scope/marshal.go:61-92). -/
def unmarshalP (lim : Str → Option Int) (C : Codec F J) (ign : List Str) (items : List (Str × MItem J))
    (t node : Nat) : Prog F S Nat := do
  let ns ← prim (.copy t)
  let (env, _) ← foldP (unmarshalStepP H lim C ign ns) ([], node) items
  prim (.append ns (.dict env))
  pure ns
end

/-! ## The text of a definition is read as the definition -/

namespace Ckpt
open Fmt

section
variable (num : Str → Str) (lim : Str → Option Int)

theorem formatAnd_render (e : CAnd) (hw : wAnd num lim e) : formatAnd num e = render (itAnd e) := by
  have h := (o_and isBetter num lim e plain hw plain_pl (.inl rfl)).text
  have : (fAnd isBetter num e plain).text = render (itAnd e) := by simpa [Vis.text, Vis.new] using h
  unfold formatAnd
  rw [show Vis.new toStringOpts false = plain from rfl, this]
  exact trim_self (h_and num lim e hw) (e_and num lim e hw)

theorem formatSelect_render (q : CSelect) (hw : wSelect num lim q) : formatSelect num q = render (itSelect q) := by
  have h := (o_select isBetter num lim q plain hw plain_pl).text
  have h' : (fSelect isBetter num q plain).text = render (itSelect q ++ selectGap q) := by
    simpa [Vis.text, Vis.new] using h
  unfold formatSelect
  rw [show Vis.new toStringOpts false = plain from rfl, h', render_append]
  rcases selectGap_cases q with hg | hg
  · rw [hg]
    simpa [render] using trim_self (okay_select q) (e_select num lim q hw)
  · rw [hg]
    simpa [render] using trim_blank (okay_select q) (e_select num lim q hw)

/-- The printed body. -/
def fmtBody : CLetBody → Str
  | .expr e => formatAnd num e
  | .select q => formatSelect num q

theorem fmtBody_render (b : CLetBody) (hw : wBody id lim b) (hk : kBody num b) :
    fmtBody num b = render (itBody (mBody num b)) := by
  cases b with
  | expr e =>
    have h := formatAnd_render num lim _ (y_and num lim e hw hk)
    unfold formatAnd at h
    rw [z_and num isBetter e _ hk] at h
    exact h
  | select q =>
    have h := formatSelect_render num lim _ (y_select num lim q hw hk)
    unfold formatSelect at h
    rw [z_select num isBetter q _ hk] at h
    exact h

theorem wBody_m (b : CLetBody) (hw : wBody id lim b) (hk : kBody num b) : wBody num lim (mBody num b) := by
  cases b with
  | expr e => exact y_and num lim e hw hk
  | select q => exact y_select num lim q hw hk

/-- A name in backquotes. -/
def quoteName (k : Str) : Str := 96 :: k ++ [96]

/-- The name is read back when it is written in backquotes. -/
def Quotable (k : Str) : Prop := IsTok .ident (quoteName k) ∧ ident (quoteName k) = k

instance (k : Str) : Decidable (Quotable k) := inferInstanceAs (Decidable (_ ∧ _))

/-- The parameter is read back when it is written as it is. -/
def PlainParam (p : Str) : Prop := IsTok .ident p ∧ ident p = p

instance (k : Str) : Decidable (PlainParam k) := inferInstanceAs (Decidable (_ ∧ _))

/-- The statement that the text of a definition is read as. -/
def defStmt (name : Str) (params : List Str) (b : CLetBody) : CStmt :=
  .let_ [] (quoteName name) (!params.isEmpty) (params.map .name) (bs "=") (mBody num b)

theorem render_names : ∀ (ps : List Str), render (itParams (ps.map .name)) = commaJoin ps
  | [] => rfl
  | [p] => by simp [itParams, itParam, paramsTail, render, commaJoin]
  | p :: q :: r => by
    have h := render_names (q :: r)
    simp only [List.map_cons, itParams, itParam, paramsTail, iop, render_append, render, commaJoin] at h ⊢
    rw [← h]
    simp [show bs ", " = bs "," ++ [32] from rfl]

theorem names_default (ps : List Str) (n : Str) : paramDefault (ps.map .name) n = none := by
  unfold paramDefault
  rw [List.filterMap_map]
  simp [Function.comp_def]

theorem wStmt_def {name : Str} {params : List Str} {b : CLetBody} (hn : Quotable name)
    (hp : ∀ p ∈ params, PlainParam p) (hw : wBody id lim b) (hk : kBody num b) :
    wStmt num lim (defStmt num name params b) := by
  refine ⟨rfl, hn.1, by simp, ?_, .inl rfl, wBody_m num lim b hw hk⟩
  intro p hp'
  obtain ⟨q, hq, rfl⟩ := List.mem_map.1 hp'
  exact ⟨(hp q hq).1, (hp q hq).2, names_default _ _⟩

theorem defText_render {name : Str} {params : List Str} {b : CLetBody} (hw : wBody id lim b)
    (hk : kBody num b) :
    defText name params (fmtBody num b) = render (itStmt (defStmt num name params b)) := by
  rw [fmtBody_render num lim b hw hk]
  unfold defText defStmt quoteName
  cases params with
  | nil =>
    simp [itStmt, render, render_append, iop, show bs "LET `" = bs "LET" ++ [32, 96] from rfl,
      show bs "` = " = [96, 32] ++ bs "=" ++ [32] from rfl]
  | cons p ps =>
    have h := render_names (p :: ps)
    simp only [List.map_cons] at h
    simp [itStmt, render, render_append, iop, h, show bs "LET `" = bs "LET" ++ [32, 96] from rfl,
      show bs "`(" = [96] ++ bs "(" from rfl, show bs ") = " = bs ")" ++ [32] ++ bs "=" ++ [32] from rfl]

/-- **The text of a definition is read as the definition.** -/
theorem parse_defText {name : Str} {params : List Str} {b : CLetBody} (hn : Quotable name)
    (hp : ∀ p ∈ params, PlainParam p) (hw : wBody id lim b) (hk : kBody num b) :
    parse lim (defText name params (fmtBody num b)) = some (defStmt num name params b) := by
  have h := wStmt_def num lim hn hp hw hk
  rw [defText_render num lim hw hk, ← format_render num lim _ h]
  exact parse_format num lim _ h
end

/-! ## Running a definition -/

section
variable {F S J : Type}

/-- What `LET name = ...` stores. -/
def objOf : Stmt → V F
  | .let_ name _ ps _ (.expr e) => .obj (.sexpr ⟨ident name, (letParams ps).1, (letParams ps).2, e⟩)
  | .let_ name _ ps _ (.select q) => .obj (.squery ⟨ident name, (letParams ps).1, (letParams ps).2, q⟩)
  | .query _ => .null

/-- The text is a definition of `k`. -/
def Defines (lim : Str → Option Int) (k text : Str) (t : CStmt) : Prop :=
  parse lim text = some t ∧ ∃ cs nm called ps b, t = .let_ cs nm called ps (bs "=") b ∧ ident nm = k

variable [FloatOps F] {H : Host F S}

theorem run_def {lim : Str → Option Int} {k text : Str} {t : CStmt} (h : Defines lim k text t) (ns node : Nat)
    (st : St F S) :
    Runs H (replayP H lim text ns node) st (lowStmt t node).2
      (st.appendVar ns (.dict [(k, objOf (lowStmt t node).1)])) := by
  obtain ⟨hp, cs, nm, called, ps, b, rfl, rfl⟩ := h
  unfold replayP
  rw [hp]
  simp only
  rw [runs_bind]
  refine ⟨[], _, ?_, runs_pure.2 ⟨rfl, rfl⟩⟩
  cases b with
  | expr e =>
    simp only [lowStmt, objOf, stmtP, show (decide (bs "=" = bs "<=")) = false from rfl, Bool.false_eq_true, if_false]
    rw [runs_pb]
    exact runs_pure.2 ⟨rfl, rfl⟩
  | select q =>
    simp only [lowStmt, objOf, stmtP, show (decide (bs "=" = bs "<=")) = false from rfl, Bool.false_eq_true, if_false]
    rw [runs_pb]
    exact runs_pure.2 ⟨rfl, rfl⟩

/-! ## Reading a checkpoint -/

/-- What is decoded, unless it is nil. -/
def kept : Option (V F) → Option (V F)
  | none => none
  | some v => if v.isNil then none else some v

/-- A plain item. -/
def plainItem (C : Codec F J) : MItem J → Option (V F)
  | .replay _ => none
  | .dict j => kept (C.decDict j)
  | .json j => kept (C.dec j)

/-- The item can be used: a text defines its own name. -/
def GoodItem (lim : Str → Option Int) (p : Str × MItem J) : Prop :=
  match p.2 with
  | .replay text => ∃ t, Defines lim p.1 text t
  | _ => True

/-- What the new variables say about `k`: the plain values `env` and the definitions `reps`. -/
def Said (lim : Str → Option Int) (C : Codec F J) (env : OD (V F)) (reps : List (OD (V F))) (k : Str) :
    Option (MItem J) → Prop
  | none => OD.get env k = none ∧ lookup reps k = none
  | some (.replay text) => OD.get env k = none ∧
      ∃ t n, Defines lim k text t ∧ lookup reps k = some (objOf (lowStmt t n).1)
  | some i => OD.get env k = plainItem C i ∧ lookup reps k = none

theorem get_keep {env : OD (V F)} {k k' : Str} {o : Option (V F)} :
    OD.get (keepValue env k o) k' = if k' = k then (kept o).or (OD.get env k') else OD.get env k' := by
  cases o with
  | none => simp [keepValue, kept]
  | some v =>
    simp only [keepValue, kept]
    by_cases hv : v.isNil = true
    · simp [hv]
    · simp only [hv]
      by_cases hk : k' = k
      · subst hk; simp [OD.get_set_self]
      · simp [hk, OD.get_set_ne _ _ hk]

/-- The item that counts for `k`. -/
def itemFor (ign : List Str) (l : List (Str × MItem J)) (k : Str) : Option (MItem J) :=
  if ign.contains k then none else OD.get l k

theorem unmarshal_fold (lim : Str → Option Int) (C : Codec F J) (ign : List Str) (t : Nat) (st : St F S) :
    ∀ (l : List (Str × MItem J)), (∀ p ∈ l, GoodItem lim p) → (l.map (·.1)).Nodup →
    ∀ (env : OD (V F)) (node : Nat) (reps : List (OD (V F))),
      (∀ p ∈ l, OD.get env p.1 = none ∧ lookup reps p.1 = none) →
      ∃ env' node' reps',
        Runs H (foldP (unmarshalStepP H lim C ign st.scopes.length) (env, node) l)
          (st.push t (reps.map .dict)) (env', node') (st.push t (reps'.map .dict)) ∧
        (∀ k, k ∈ l.map (·.1) → Said lim C env' reps' k (itemFor ign l k)) ∧
        (∀ k, k ∉ l.map (·.1) → OD.get env' k = OD.get env k ∧ lookup reps' k = lookup reps k)
  | [], _, _, env, node, reps, _ => by
    refine ⟨env, node, reps, runs_pure.2 ⟨rfl, rfl⟩, ?_, ?_⟩
    · intro k hk; simp at hk
    · intro k _; exact ⟨rfl, rfl⟩
  | (k0, i) :: l, hg, hnd, env, node, reps, hfree => by
    simp only [List.map_cons, List.nodup_cons] at hnd
    -- one step
    have hstep : ∃ env1 node1 reps1,
        Runs H (unmarshalStepP H lim C ign st.scopes.length (env, node) (k0, i))
          (st.push t (reps.map .dict)) (env1, node1) (st.push t (reps1.map .dict)) ∧
        Said lim C env1 reps1 k0 (itemFor ign ((k0, i) :: l) k0) ∧
        (∀ k, k ≠ k0 → OD.get env1 k = OD.get env k ∧ lookup reps1 k = lookup reps k) := by
      have h0 := hfree (k0, i) (by simp)
      have hi : itemFor ign ((k0, i) :: l) k0 = if ign.contains k0 then none else some i := by
        simp [itemFor, OD.get]
      rw [hi]
      unfold unmarshalStepP
      by_cases hig : ign.contains k0 = true
      · refine ⟨env, node, reps, ?_, ?_, fun _ _ => ⟨rfl, rfl⟩⟩
        · simp only [hig, if_true]; exact runs_pure.2 ⟨rfl, rfl⟩
        · simp only [hig, if_true]; exact h0
      · simp only [hig]
        have hplain : ∀ o : Option (V F),
            OD.get (keepValue env k0 o) k0 = kept o ∧ lookup reps k0 = none := by
          intro o
          rw [get_keep]
          simp [h0.1, h0.2]
        cases i with
        | replay text =>
          obtain ⟨t', ht'⟩ := hg (k0, .replay text) (by simp)
          refine ⟨env, (lowStmt t' node).2, reps ++ [[(k0, objOf (lowStmt t' node).1)]], ?_, ?_, ?_⟩
          · simp only [Bool.false_eq_true, if_false]
            rw [runs_bind]
            refine ⟨_, _, run_def ht' _ node _, ?_⟩
            refine runs_pure.2 ⟨rfl, ?_⟩
            have := append_push st t (reps.map .dict) (.dict [(k0, objOf (lowStmt t' node).1)])
            simp only [Prim.step, Prod.mk.injEq, true_and] at this
            rw [this]
            simp
          · refine ⟨h0.1, t', node, ht', ?_⟩
            rw [lookup_append]
            simp [OD.get]
          · intro k hk
            refine ⟨rfl, ?_⟩
            rw [lookup_append]
            simp [OD.get, Ne.symm hk]
        | dict j =>
          refine ⟨keepValue env k0 (C.decDict j), node, reps, ?_, hplain (C.decDict j), ?_⟩
          · simp only [Bool.false_eq_true, if_false]; exact runs_pure.2 ⟨rfl, rfl⟩
          · intro k hk; rw [get_keep]; simp [hk]
        | json j =>
          refine ⟨keepValue env k0 (C.dec j), node, reps, ?_, hplain (C.dec j), ?_⟩
          · simp only [Bool.false_eq_true, if_false]; exact runs_pure.2 ⟨rfl, rfl⟩
          · intro k hk; rw [get_keep]; simp [hk]
    obtain ⟨env1, node1, reps1, hrun, hsaid, hother⟩ := hstep
    have hne : ∀ p ∈ l, p.1 ≠ k0 := fun p hp he => hnd.1 (List.mem_map.2 ⟨p, hp, he⟩)
    obtain ⟨env2, node2, reps2, hrun2, hin, hout⟩ := unmarshal_fold lim C ign t st l
      (fun p hp => hg p (by simp [hp])) hnd.2 env1 node1 reps1
      (fun p hp => by
        have := hfree p (by simp [hp])
        rw [(hother p.1 (hne p hp)).1, (hother p.1 (hne p hp)).2]; exact this)
    refine ⟨env2, node2, reps2, ?_, ?_, ?_⟩
    · rw [foldP, runs_bind]
      exact ⟨_, _, hrun, hrun2⟩
    · intro k hk
      by_cases hk0 : k = k0
      · subst hk0
        have := hout k hnd.1
        have he : ∀ o : Option (MItem J), Said lim C env1 reps1 k o → Said lim C env2 reps2 k o := by
          intro o ho
          cases o with
          | none => exact ⟨this.1.trans ho.1, this.2.trans ho.2⟩
          | some i =>
            cases i with
            | replay text =>
              obtain ⟨h1, t', n, h2, h3⟩ := ho
              exact ⟨this.1.trans h1, t', n, h2, this.2.trans h3⟩
            | dict j => exact ⟨this.1.trans ho.1, this.2.trans ho.2⟩
            | json j => exact ⟨this.1.trans ho.1, this.2.trans ho.2⟩
        exact he _ hsaid
      · have hk' : k ∈ l.map (·.1) := by simpa [hk0] using hk
        have := hin k hk'
        have he : itemFor ign ((k0, i) :: l) k = itemFor ign l k := by
          simp [itemFor, OD.get, Ne.symm hk0]
        rw [he]; exact this
    · intro k hk
      simp only [List.map_cons, List.mem_cons, not_or] at hk
      have h1 := hout k hk.2
      have h2 := hother k hk.1
      exact ⟨h1.1.trans h2.1, h1.2.trans h2.2⟩

/-- Reading a checkpoint into scope `t`. -/
theorem unmarshal_runs (lim : Str → Option Int) (C : Codec F J) (ign : List Str) (t node : Nat) (st : St F S)
    (l : List (Str × MItem J)) (hg : ∀ p ∈ l, GoodItem lim p) (hnd : (l.map (·.1)).Nodup) :
    ∃ env reps, Runs H (unmarshalP H lim C ign l t node) st st.scopes.length
        (st.push t ((reps ++ [env]).map .dict)) ∧
      ∀ k, Said lim C env reps k (itemFor ign l k) := by
  obtain ⟨env, node', reps, hrun, hin, hout⟩ := unmarshal_fold (H := H) lim C ign t st l hg hnd [] node []
    (fun _ _ => ⟨rfl, rfl⟩)
  refine ⟨env, reps, ?_, ?_⟩
  · unfold unmarshalP
    rw [runs_pb, copy_push]
    rw [runs_bind]
    refine ⟨_, _, hrun, ?_⟩
    simp only
    rw [runs_pb, append_push]
    exact runs_pure.2 ⟨rfl, by simp⟩
  · intro k
    by_cases hk : k ∈ l.map (·.1)
    · exact hin k hk
    · have h := hout k hk
      have hi : itemFor ign l k = none := by
        unfold itemFor
        split
        · rfl
        · cases hg : OD.get l k with
          | none => rfl
          | some v => exact absurd (List.mem_map.2 ⟨_, OD.mem_of_get hg, rfl⟩) hk
      rw [hi]
      exact h

/-! ## Writing a checkpoint -/

/-- One step, for variables in dictionaries. -/
def mstep (num : Str → Str) (C : Codec F J) (ds : List (OD (V F))) (acc : Option (OD (MItem J))) (k : Str) :
    Option (OD (MItem J)) :=
  match acc with
  | none => none
  | some items => if skipped k then some items else match lookup ds k with
    | none => some items
    | some v => (marshalValue num C v).map (OD.set items k)

theorem marshal_names {num : Str → Str} {C : Codec F J} {s : Nat} {st : St F S} {ds : List (OD (V F))}
    (hd : (st.scp s).depth < 1000) (hv : (st.scp s).vars = ds.map .dict) :
    ∀ (ks : List Str), (∀ k ∈ ks, PlainKey k) → ∀ acc,
      Runs H (foldP (marshalStepP num C s) acc ks) st (ks.foldl (mstep num C ds) acc) st
  | [], _, acc => runs_pure.2 ⟨rfl, rfl⟩
  | k :: ks, hk, acc => by
    rw [foldP, runs_bind]
    refine ⟨mstep num C ds acc k, st, ?_, marshal_names hd hv ks (fun k h => hk k (by simp [h])) _⟩
    cases acc with
    | none => exact runs_pure.2 ⟨rfl, rfl⟩
    | some items =>
      simp only [marshalStepP, mstep]
      by_cases hs : skipped k = true
      · simp only [hs, if_true]; exact runs_pure.2 ⟨rfl, rfl⟩
      · simp only [hs, Bool.false_eq_true, if_false]
        rw [runs_bind]
        refine ⟨_, _, (resolve_dicts (hk k (by simp)) hd hv).2 ⟨rfl, rfl⟩, ?_⟩
        cases lookup ds k with
        | none => exact runs_pure.2 ⟨rfl, rfl⟩
        | some v => exact runs_pure.2 ⟨rfl, rfl⟩

theorem marshal_fold {num : Str → Str} {C : Codec F J} {s : Nat} {st : St F S} {ds : List (OD (V F))}
    (hd : (st.scp s).depth < 1000) (hv : (st.scp s).vars = ds.map .dict) :
    ∀ (es : List (OD (V F))), (∀ d ∈ es, ∀ k ∈ OD.keys d, PlainKey k) → ∀ acc,
      Runs H (foldP (fun acc v => do
        let ks ← call (.members v s)
        foldP (marshalStepP num C s) acc ks) acc (es.map .dict)) st
          ((es.flatMap OD.keys).foldl (mstep num C ds) acc) st
  | [], _, acc => runs_pure.2 ⟨rfl, rfl⟩
  | d :: es, hk, acc => by
    rw [List.map_cons, foldP, runs_bind]
    refine ⟨(OD.keys d).foldl (mstep num C ds) acc, st, ?_, ?_⟩
    · rw [runs_bind]
      exact ⟨_, _, runs_members_dict.2 ⟨rfl, rfl⟩, marshal_names hd hv _ (hk d (by simp)) acc⟩
    · have := marshal_fold (num := num) (C := C) hd hv es (fun d h => hk d (by simp [h])) ((OD.keys d).foldl (mstep num C ds) acc)
      rw [List.flatMap_cons, List.foldl_append]
      exact this

omit [FloatOps F] in
theorem lookup_names {ds : List (OD (V F))} {k : Str} :
    (lookup ds k).isSome = true ↔ k ∈ ds.flatMap OD.keys := by
  unfold lookup
  rw [List.findSome?_isSome_iff]
  simp only [List.mem_reverse, List.mem_flatMap]
  constructor
  · rintro ⟨d, hd, h⟩
    obtain ⟨v, hv⟩ := Option.isSome_iff_exists.1 h
    exact ⟨d, hd, List.mem_map.2 ⟨_, OD.mem_of_get hv, rfl⟩⟩
  · rintro ⟨d, hd, h⟩
    refine ⟨d, hd, ?_⟩
    unfold OD.keys at h
    obtain ⟨⟨k', v⟩, hp, rfl⟩ := List.mem_map.1 h
    clear hd
    induction d with
    | nil => simp at hp
    | cons q d ih =>
      simp only [OD.get]
      split
      · rfl
      · rename_i hne
        rcases List.mem_cons.1 hp with rfl | hp
        · exact absurd rfl hne
        · exact ih hp (List.mem_map.2 ⟨_, hp, rfl⟩)

omit [FloatOps F] in
theorem mstep_fold {num : Str → Str} {C : Codec F J} {ds : List (OD (V F))} 
    (hok : ∀ k v, skipped k = false → lookup ds k = some v → (marshalValue num C v).isSome = true) :
    ∀ (ks : List Str) (items : OD (MItem J)), OD.WF items →
      ∃ items', ks.foldl (mstep num C ds) (some items) = some items' ∧ OD.WF items' ∧
        ∀ k, OD.get items' k = if k ∈ ks ∧ skipped k = false ∧ (lookup ds k).isSome = true
          then (lookup ds k).bind (marshalValue num C) else OD.get items k
  | [], items, hw => ⟨items, rfl, hw, by simp⟩
  | k0 :: ks, items, hw => by
    rw [List.foldl_cons]
    have hstep : ∃ i1, mstep num C ds (some items) k0 = some i1 ∧ OD.WF i1 ∧
        ∀ k, OD.get i1 k = if k = k0 ∧ skipped k = false ∧ (lookup ds k).isSome = true
          then (lookup ds k).bind (marshalValue num C) else OD.get items k := by
      simp only [mstep]
      by_cases hs : skipped k0 = true
      · refine ⟨items, by simp [hs], hw, ?_⟩
        intro k
        rw [if_neg]
        rintro ⟨rfl, h, _⟩
        rw [hs] at h; cases h
      · have hs' : skipped k0 = false := by simpa using hs
        cases hl : lookup ds k0 with
        | none =>
          refine ⟨items, by simp [hs], hw, ?_⟩
          intro k
          rw [if_neg]
          rintro ⟨rfl, _, h⟩
          rw [hl] at h; cases h
        | some v =>
          obtain ⟨m, hm⟩ := Option.isSome_iff_exists.1 (hok k0 v hs' hl)
          refine ⟨OD.set items k0 m, by simp [hs, hm], OD.keys_set_nodup hw _ _, ?_⟩
          intro k
          by_cases hk : k = k0
          · subst hk
            rw [OD.get_set_self, if_pos ⟨rfl, hs', by rw [hl]; rfl⟩, hl]
            exact hm.symm
          · rw [OD.get_set_ne _ _ hk, if_neg (fun h => hk h.1)]
    obtain ⟨i1, h1, hw1, hg1⟩ := hstep
    rw [h1]
    obtain ⟨i2, h2, hw2, hg2⟩ := mstep_fold hok ks i1 hw1
    refine ⟨i2, h2, hw2, ?_⟩
    intro k
    rw [hg2, hg1]
    by_cases hs : skipped k = false <;> by_cases hl : (lookup ds k).isSome = true <;> simp only [hs, hl] <;> simp
    by_cases hk : k ∈ ks <;> by_cases hk0 : k = k0 <;> simp [hk, hk0]

/-- Writing a checkpoint of a scope made of dictionaries: one item for every name that is not left
out, with the value the name resolves to. -/
theorem marshal_runs {num : Str → Str} {C : Codec F J} {s : Nat} {st : St F S} {ds : List (OD (V F))}
    (hd : (st.scp s).depth < 1000) (hv : (st.scp s).vars = ds.map .dict)
    (hk : ∀ d ∈ ds, ∀ k ∈ OD.keys d, PlainKey k)
    (hok : ∀ k v, skipped k = false → lookup ds k = some v → (marshalValue num C v).isSome = true) :
    ∃ items, Runs H (marshalP num C s) st (some items) st ∧ OD.WF items ∧
      ∀ k, OD.get items k = if skipped k then none else (lookup ds k).bind (marshalValue num C) := by
  obtain ⟨items, h1, h2, h3⟩ := mstep_fold (num := num) hok (ds.flatMap OD.keys) [] OD.wf_nil
  refine ⟨items, ?_, h2, ?_⟩
  · unfold marshalP
    rw [runs_pb]
    have := marshal_fold (H := H) (num := num) (C := C) hd hv ds hk (some [])
    rw [h1] at this
    show Runs H (foldP _ _ (st.scp s).vars) st _ _
    rw [hv]
    exact this
  · intro k
    rw [h3]
    by_cases hs : skipped k = true
    · simp [hs, OD.get]
    · by_cases hl : (lookup ds k).isSome = true
      · rw [if_pos ⟨lookup_names.1 hl, by simpa using hs, hl⟩]
        simp [hs]
      · simp only [Bool.not_eq_true, Option.isSome_eq_false_iff, Option.isNone_iff_eq_none] at hl
        simp [hs, hl, OD.get]

/-- One item that can not be written ends everything. -/
theorem mstep_none {num : Str → Str} {C : Codec F J} {ds : List (OD (V F))} {k : Str} {v : V F}
    (hs : skipped k = false) (hl : lookup ds k = some v) (hm : marshalValue num C v = none) :
    ∀ (ks : List Str) (acc : Option (OD (MItem J))), acc = none ∨ k ∈ ks → ks.foldl (mstep num C ds) acc = none
  | [], acc, h => by simpa using h
  | k0 :: ks, acc, h => by
    rw [List.foldl_cons]
    refine mstep_none hs hl hm ks _ ?_
    rcases h with rfl | h
    · exact .inl rfl
    · rcases List.mem_cons.1 h with rfl | h
      · left
        cases acc with
        | none => rfl
        | some items => simp [mstep, hs, hl, hm]
      · exact .inr h

theorem marshal_fails {num : Str → Str} {C : Codec F J} {s : Nat} {st : St F S} {ds : List (OD (V F))}
    (hd : (st.scp s).depth < 1000) (hv : (st.scp s).vars = ds.map .dict)
    (hk : ∀ d ∈ ds, ∀ k ∈ OD.keys d, PlainKey k) {k : Str} {v : V F}
    (hs : skipped k = false) (hl : lookup ds k = some v) (hm : marshalValue num C v = none) :
    Runs H (marshalP num C s) st none st := by
  unfold marshalP
  rw [runs_pb]
  have := marshal_fold (H := H) (num := num) (C := C) hd hv ds hk (some [])
  rw [mstep_none hs hl hm (ds.flatMap OD.keys) (some []) (.inr (lookup_names.1 (by rw [hl]; rfl)))] at this
  show Runs H (foldP _ _ (st.scp s).vars) st _ _
  rw [hv]
  exact this
end
end Ckpt
end Vfilter.Vql
