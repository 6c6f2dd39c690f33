import Verif.ArgDecl
import Verif.Introspect
/-!
# C95: how functions and plugins declare their arguments

The tag of a struct field says what the argument is called and whether it has to
be given; descriptions show the same name; parsers registered for a type are
used.
-/

namespace Vfilter.ArgDecl

/-! ## Tags -/

/-- The directives of a tag put together. -/
def tagOf : List Str → Str
  | [] => []
  | [d] => d
  | d :: e :: r => d ++ 44 :: tagOf (e :: r)

/-- A directive is read as option `k` with value `v`: `k` alone has the value Y,
`k=v` and `k=v=...` have the value `v`. -/
inductive Reads : Str → Str → Str → Prop where
  | alone {k : Str} : 61 ∉ k → Reads k k (bs "Y")
  | value {k v : Str} : 61 ∉ k → 61 ∉ v → Reads (k ++ 61 :: v) k v
  | more {k v r : Str} : 61 ∉ k → 61 ∉ v → Reads (k ++ 61 :: (v ++ 61 :: r)) k v

/-- The value of the last of the options with the name. -/
def lastOf (k : Str) (ps : List (Str × Str)) : Option Str :=
  ((ps.filter (fun p => decide (p.1 = k))).getLast?).map (·.2)

theorem splitOn_none {c : UInt8} {s : Str} (h : c ∉ s) : splitOn c s = [s] := by
  induction s with
  | nil => rfl
  | cons x s ih =>
    have hx : x ≠ c := fun e => h (by simp [e])
    rw [splitOn, if_neg hx, ih (fun hm => h (by simp [hm]))]

theorem splitOn_cons {c : UInt8} {a b : Str} (h : c ∉ a) :
    splitOn c (a ++ c :: b) = a :: splitOn c b := by
  induction a with
  | nil => simp [splitOn]
  | cons x s ih =>
    have hx : x ≠ c := fun e => h (by simp [e])
    rw [List.cons_append, splitOn, if_neg hx, ih (fun hm => h (by simp [hm]))]

theorem splitOn_tagOf {ds : List Str} (hne : ds ≠ []) (h : ∀ d ∈ ds, 44 ∉ d) :
    splitOn 44 (tagOf ds) = ds := by
  induction ds with
  | nil => exact absurd rfl hne
  | cons d r ih =>
    cases r with
    | nil => exact splitOn_none (h d (by simp))
    | cons e r =>
      rw [tagOf, splitOn_cons (h d (by simp)), ih (by simp) (fun x hx => h x (by simp [hx]))]

theorem addDirective_reads {d k v : Str} (h : Reads d k v) (o : OD Str) :
    addDirective o d = OD.set o k v := by
  cases h with
  | alone h => simp [addDirective, h]
  | value h1 h2 => simp [addDirective, splitOn_cons h1, splitOn_none h2]
  | more h1 h2 => simp [addDirective, splitOn_cons h1, splitOn_cons h2]

theorem lastOf_snoc (k : Str) (ps : List (Str × Str)) (p : Str × Str) :
    lastOf k (ps ++ [p]) = if p.1 = k then some p.2 else lastOf k ps := by
  unfold lastOf
  by_cases hp : p.1 = k <;> simp [List.filter_append, hp]

theorem get_sets (ps : List (Str × Str)) (k : Str) :
    OD.get (ps.foldl (fun o p => OD.set o p.1 p.2) []) k = lastOf k ps := by
  rw [← List.reverse_reverse ps]
  induction ps.reverse with
  | nil => rfl
  | cons p r ih =>
    rw [List.reverse_cons, List.foldl_append, lastOf_snoc]
    simp only [List.foldl_cons, List.foldl_nil]
    by_cases hp : p.1 = k
    · rw [if_pos hp, ← hp, OD.get_set_self]
    · rw [if_neg hp, OD.get_set_ne _ _ (fun e => hp e.symm), ih]

theorem options_reads {ds : List Str} {ps : List (Str × Str)} (hne : ds ≠ [])
    (h : ∀ d ∈ ds, 44 ∉ d) (hl : ds.length = ps.length)
    (hr : ∀ (i : Nat) (d : Str) (p : Str × Str), ds[i]? = some d → ps[i]? = some p → Reads d p.1 p.2) :
    options (tagOf ds) = ps.foldl (fun o p => OD.set o p.1 p.2) [] := by
  rw [options, splitOn_tagOf hne h]
  have : ∀ (ds : List Str) (ps : List (Str × Str)) (o : OD Str), ds.length = ps.length →
      (∀ (i : Nat) (d : Str) (p : Str × Str), ds[i]? = some d → ps[i]? = some p → Reads d p.1 p.2) →
      ds.foldl addDirective o = ps.foldl (fun o p => OD.set o p.1 p.2) o := by
    intro ds
    induction ds with
    | nil => intro ps o hl _; cases ps with
      | nil => rfl
      | cons => simp at hl
    | cons d r ih =>
      intro ps o hl hr
      cases ps with
      | nil => simp at hl
      | cons p q =>
        rw [List.foldl_cons, List.foldl_cons, addDirective_reads (hr 0 d p rfl rfl)]
        exact ih q _ (by simpa using hl) (fun i d' p' h1 h2 => hr (i + 1) d' p' h1 h2)
  exact this ds ps [] hl hr

/-- C95: the options of a tag are those of its directives; of directives with the
same name the last one counts. -/
theorem C95_option (ds : List Str) (ps : List (Str × Str)) (hne : ds ≠ [])
    (hcomma : ∀ d ∈ ds, 44 ∉ d) (hl : ds.length = ps.length)
    (hreads : ∀ (i : Nat) (d : Str) (p : Str × Str), ds[i]? = some d → ps[i]? = some p →
      Reads d p.1 p.2) (k : Str) :
    OD.get (options (tagOf ds)) k = lastOf k ps := by
  rw [options_reads hne hcomma hl hreads, get_sets]

/-- The text of a usual tag: `required,field=NAME` or `optional,field=NAME`, with
`,doc=TEXT` behind it or not. -/
def usual (required : Bool) (name : Str) (doc : Option Str) : Str :=
  (if required then bs "required" else bs "optional") ++ bs ",field=" ++ name ++
    (match doc with | some t => bs ",doc=" ++ t | none => [])

/-- What is in front of the first character `61` of a text. -/
theorem doc_reads (k t : Str) (hk : 61 ∉ k) : ∃ v, Reads (k ++ 61 :: t) k v := by
  by_cases h : 61 ∈ t
  · obtain ⟨v, r, e, hv⟩ : ∃ v r, t = v ++ 61 :: r ∧ 61 ∉ v := by
      induction t with
      | nil => cases h
      | cons x t ih =>
        by_cases hx : x = 61
        · exact ⟨[], t, by simp [hx], by simp⟩
        · obtain ⟨v, r, e, hv⟩ := ih (by
            rcases List.mem_cons.mp h with h | h
            · exact absurd h.symm hx
            · exact h)
          exact ⟨x :: v, r, by simp [e], by
            intro hm
            rcases List.mem_cons.mp hm with hm | hm
            · exact hx hm.symm
            · exact hv hm⟩
    subst e
    exact ⟨v, .more hk hv⟩
  · exact ⟨t, .value hk h⟩

/-- C95: a field with a usual tag declares an argument with this name, which is
required if the tag says so; the documentation may contain anything but commas. -/
theorem C95_usual_partial (required : Bool) (name : Str) (doc : Option Str) (hn : 44 ∉ name)
    (hn' : 61 ∉ name) (hd : ∀ t ∈ doc, 44 ∉ t) :
    OD.get (options (usual required name doc)) (bs "field") = some name ∧
      (OD.get (options (usual required name doc)) (bs "required")).isSome = required := by
  have hmode : Reads (if required then bs "required" else bs "optional")
      (if required then bs "required" else bs "optional") (bs "Y") :=
    .alone (by cases required <;> decide)
  have hm44 : 44 ∉ (if required then bs "required" else bs "optional") := by
    cases required <;> decide
  have hf : Reads (bs "field" ++ 61 :: name) (bs "field") name := .value (by decide) hn'
  have hf44 : 44 ∉ bs "field" ++ 61 :: name := by
    intro h
    rcases List.mem_append.mp h with h | h
    · exact absurd h (by decide)
    · rcases List.mem_cons.mp h with h | h
      · exact absurd h (by decide)
      · exact hn h
  cases doc with
  | none =>
    have e : usual required name none =
        tagOf [if required then bs "required" else bs "optional", bs "field" ++ 61 :: name] := by
      simp [usual, tagOf]; rfl
    have := C95_option [if required then bs "required" else bs "optional", bs "field" ++ 61 :: name]
      [(if required then bs "required" else bs "optional", bs "Y"), (bs "field", name)] (by simp)
      (by
        intro d hd'
        simp only [List.mem_cons, List.not_mem_nil, or_false] at hd'
        rcases hd' with rfl | rfl
        · exact hm44
        · exact hf44) rfl
      (by
        intro i d p h1 h2
        match i with
        | 0 => simp at h1 h2; subst h1; subst h2; exact hmode
        | 1 => simp at h1 h2; subst h1; subst h2; exact hf
        | i + 2 => simp at h1)
    rw [e]
    constructor
    · rw [this]; cases required <;> simp [lastOf] <;> rfl
    · rw [this]; cases required <;> rfl
  | some t =>
    have ht : 44 ∉ t := hd t rfl
    obtain ⟨v, hv⟩ := doc_reads (bs "doc") t (by decide)
    have hd44 : 44 ∉ bs "doc" ++ 61 :: t := by
      intro h
      rcases List.mem_append.mp h with h | h
      · exact absurd h (by decide)
      · rcases List.mem_cons.mp h with h | h
        · exact absurd h (by decide)
        · exact ht h
    have e : usual required name (some t) =
        tagOf [if required then bs "required" else bs "optional", bs "field" ++ 61 :: name,
          bs "doc" ++ 61 :: t] := by
      simp [usual, tagOf]; rfl
    have := C95_option [if required then bs "required" else bs "optional", bs "field" ++ 61 :: name,
        bs "doc" ++ 61 :: t]
      [(if required then bs "required" else bs "optional", bs "Y"), (bs "field", name), (bs "doc", v)]
      (by simp) (by
        intro d hd'
        simp only [List.mem_cons, List.not_mem_nil, or_false] at hd'
        rcases hd' with rfl | rfl | rfl
        · exact hm44
        · exact hf44
        · exact hd44) rfl
      (by
        intro i d p h1 h2
        match i with
        | 0 => simp at h1 h2; subst h1; subst h2; exact hmode
        | 1 => simp at h1 h2; subst h1; subst h2; exact hf
        | 2 => simp at h1 h2; subst h1; subst h2; exact hv
        | i + 3 => simp at h1)
    rw [e]
    constructor
    · rw [this]; cases required <;> rfl
    · rw [this]; cases required <;> rfl

/-- C95: descriptions of the function or plugin show the argument under the name
that the parser accepts, if it is made of letters, digits and underscores. -/
theorem C95_described_partial (required : Bool) (name : Str) (doc : Option Str) (hne : name ≠ [])
    (hn : ∀ c ∈ name, Intro.wordChar c = true) (hd : ∀ t ∈ doc, 44 ∉ t) :
    Intro.tagName (usual required name doc) =
      OD.get (options (usual required name doc)) (bs "field") := by
  have h44 : 44 ∉ name := fun h => absurd (hn _ h) (by decide)
  have h61 : 61 ∉ name := fun h => absurd (hn _ h) (by decide)
  rw [(C95_usual_partial required name doc h44 h61 hd).1]
  have key : ∀ rest : Str, (∀ c ∈ rest.head?, Intro.wordChar c = false) →
      Intro.tagName (bs "field=" ++ (name ++ rest)) = some name := by
    intro rest hr
    have htake : (name ++ rest).takeWhile Intro.wordChar = name := by
      rw [List.takeWhile_append_of_pos hn]
      cases rest with
      | nil => simp
      | cons c r => simp [hr c rfl]
    have e : bs "field=" ++ (name ++ rest) = 102 :: 105 :: 101 :: 108 :: 100 :: 61 :: (name ++ rest) := rfl
    rw [e, Intro.tagName]
    have hp : (bs "field=").isPrefixOf (102 :: 105 :: 101 :: 108 :: 100 :: 61 :: (name ++ rest)) = true := by
      rfl
    rw [if_pos hp]
    have hdrop : (102 :: 105 :: 101 :: 108 :: 100 :: 61 :: (name ++ rest)).drop 6 = name ++ rest := rfl
    rw [hdrop, htake]
    cases name with
    | nil => exact absurd rfl hne
    | cons c r => rfl
  have hrest : ∀ c ∈ (match doc with | some t => bs ",doc=" ++ t | none => []).head?,
      Intro.wordChar c = false := by
    cases doc with
    | none => simp
    | some t =>
      intro c hc
      have : c = 44 := by
        have : some (44 : UInt8) = some c := hc
        exact (Option.some.inj this).symm
      subst this; decide
  have e : usual required name doc = (if required then bs "required" else bs "optional") ++ 44 ::
      (bs "field=" ++ (name ++ (match doc with | some t => bs ",doc=" ++ t | none => []))) := by
    simp [usual]; rfl
  rw [e]
  cases required
  · exact (by simpa [bs, Intro.tagName] using key _ hrest)
  · exact (by simpa [bs, Intro.tagName] using key _ hrest)

/-- C95: a comma in the documentation ends it: what stands behind it is read as a
directive, and makes an optional argument required; and the description may show a
name that the parser does not know. -/
theorem C95_doc_refuted :
    (OD.get (options (bs "optional,field=sep,doc=the separator,required")) (bs "required")).isSome = true ∧
      (Intro.tagName (bs "optional,doc=same as field=a,field=b") = some (bs "a") ∧
        OD.get (options (bs "optional,doc=same as field=a,field=b")) (bs "field") = some (bs "b")) ∧
      (Intro.tagName (bs "optional,field=a-b") = some (bs "a") ∧
        OD.get (options (bs "optional,field=a-b")) (bs "field") = some (bs "a-b")) := by
  decide +kernel

/-! ## Structs -/

section
variable {T P K : Type}

/-- The declaration of one field: the name is that of the tag or the Go name, the
parser the one for the type, or else for the kind of the type. -/
structure Declares (special kind : T → Option P) (i : Nat) (f : SField T) (d : Decl P) : Prop where
  idx : d.idx = i
  settable : f.settable = true
  name : d.name = (OD.get (options f.tag) (bs "field")).getD f.name
  named : d.name ≠ []
  required : d.required = (OD.get (options f.tag) (bs "required")).isSome
  parser : special f.type = some d.parser ∨ (special f.type = none ∧ kind f.type = some d.parser)

/-- The declarations of fields, numbered from `i` on: fields without tag and with
the tag "-" declare nothing. -/
inductive DeclaresAll (special kind : T → Option P) : Nat → List (SField T) → List (Decl P) → Prop where
  | nil {i : Nat} : DeclaresAll special kind i [] []
  | skip {i : Nat} {f : SField T} {fs : List (SField T)} {ds : List (Decl P)} :
      f.tag = [] ∨ f.tag = bs "-" → DeclaresAll special kind (i + 1) fs ds →
      DeclaresAll special kind i (f :: fs) ds
  | take {i : Nat} {f : SField T} {fs : List (SField T)} {d : Decl P} {ds : List (Decl P)} :
      f.tag ≠ [] → f.tag ≠ bs "-" → Declares special kind i f d →
      DeclaresAll special kind (i + 1) fs ds → DeclaresAll special kind i (f :: fs) (d :: ds)

theorem declare_take {special kind : T → Option P} {i : Nat} {f : SField T} (h1 : f.tag ≠ [])
    (h2 : f.tag ≠ bs "-") (r : Option (Decl P)) :
    declare special kind i f = .ok r ↔ ∃ d, r = some d ∧ Declares special kind i f d := by
  unfold declare
  rw [if_neg (by simp [h1, h2])]
  simp only
  constructor
  · intro h
    split at h
    · cases h
    · rename_i hname
      split at h
      · cases h
      · rename_i hset
        split at h
        · rename_i p hp
          cases h
          exact ⟨_, rfl, rfl, by simpa using hset, rfl, hname, rfl, Or.inl hp⟩
        · rename_i hp
          split at h
          · rename_i p hk
            cases h
            exact ⟨_, rfl, rfl, by simpa using hset, rfl, hname, rfl, Or.inr ⟨hp, hk⟩⟩
          · cases h
  · rintro ⟨d, rfl, hd⟩
    have e1 : (OD.get (options f.tag) (bs "field")).getD f.name ≠ [] := hd.name ▸ hd.named
    rw [if_neg e1, if_neg (by simp [hd.settable])]
    rcases hd.parser with hp | ⟨hp, hk⟩
    · rw [hp]
      simp only [POut.ok.injEq, Option.some.injEq]
      rw [← hd.name, ← hd.required, ← hd.idx]
    · rw [hp]
      simp only [hk, POut.ok.injEq, Option.some.injEq]
      rw [← hd.name, ← hd.required, ← hd.idx]

theorem buildFrom_iff {special kind : T → Option P} {fields : List (SField T)} :
    ∀ {i : Nat} {ds : List (Decl P)},
      buildFrom special kind i fields = .ok ds ↔ DeclaresAll special kind i fields ds := by
  induction fields with
  | nil =>
    intro i ds
    constructor
    · intro h; cases h; exact .nil
    · intro h; cases h; rfl
  | cons f fs ih =>
    intro i ds
    by_cases ht : f.tag = [] ∨ f.tag = bs "-"
    · have hd : declare special kind i f = .ok none := by rw [declare, if_pos ht]
      rw [buildFrom, hd]
      constructor
      · intro h
        cases hb : buildFrom special kind (i + 1) fs with
        | ok x => rw [hb] at h; simp at h; subst h; exact .skip ht (ih.mp hb)
        | err => rw [hb] at h; cases h
        | panic => rw [hb] at h; cases h
      · intro h
        cases h with
        | skip _ h => simp [ih.mpr h]
        | take h1 h2 => rcases ht with ht | ht <;> contradiction
    · have h1 : f.tag ≠ [] := fun e => ht (Or.inl e)
      have h2 : f.tag ≠ bs "-" := fun e => ht (Or.inr e)
      have hd := declare_take (special := special) (kind := kind) (i := i) h1 h2
      rw [buildFrom]
      constructor
      · intro h
        cases hx : declare special kind i f with
        | err => rw [hx] at h; cases h
        | panic => rw [hx] at h; cases h
        | ok r =>
          rw [hx] at h
          obtain ⟨d, rfl, hdd⟩ := (hd r).mp hx
          cases hb : buildFrom special kind (i + 1) fs with
          | ok x => rw [hb] at h; simp at h; subst h; exact .take h1 h2 hdd (ih.mp hb)
          | err => rw [hb] at h; cases h
          | panic => rw [hb] at h; cases h
      · intro h
        cases h with
        | skip h' _ => exact absurd h' ht
        | take _ _ hdd h =>
          rw [(hd _).mpr ⟨_, rfl, hdd⟩]
          simp [ih.mpr h]

/-- C95: the arguments of a struct are those of its tagged fields, in order. -/
theorem C95_struct (special kind : T → Option P) (fields : List (SField T)) (ds : List (Decl P)) :
    build special kind fields = .ok ds ↔ DeclaresAll special kind 0 fields ds :=
  buildFrom_iff

/-! ## The cache -/

variable [DecidableEq T] [DecidableEq K] (kind : T → Option P) (structs : K → List (SField T))
  (special : T → Option P)

/-- The parser for a type that was registered last. -/
def newest (t : T) : List (POp T P K) → Option P
  | [] => special t
  | .register t' p :: h => if t = t' then some p else newest t h
  | .get _ :: h => newest t h

theorem after_snoc (h : List (POp T P K)) (o : POp T P K) :
    after kind structs special (h ++ [o]) = pstep kind structs (after kind structs special h) o := by
  simp [after, List.foldl_append]

theorem after_special (h : List (POp T P K)) (t : T) :
    (after kind structs special h).special t = newest special t h.reverse := by
  rw [← List.reverse_reverse h]
  generalize h.reverse = r
  rw [List.reverse_reverse]
  induction r with
  | nil => rfl
  | cons o r ih =>
    rw [List.reverse_cons, after_snoc]
    cases o with
    | register t' p => simp only [pstep, newest, ih]
    | get k =>
      simp only [pstep, newest]
      split <;> exact ih

theorem keeps {h : List (POp T P K)} {k : K} {ds : List (Decl P)} :
    ∀ {st : PSt T P K}, st.cache k = some ds → (h.foldl (pstep kind structs) st).cache k = some ds := by
  induction h with
  | nil => intro st hs; exact hs
  | cons o h ih =>
    intro st hs
    refine ih ?_
    cases o with
    | register t p => exact hs
    | get k' =>
      simp only [pstep]
      split
      · rename_i ds' ha
        by_cases e : k = k'
        · subst e
          rw [answer, hs] at ha
          cases ha
          simp
        · simp [e, hs]
      · exact hs

/-- C95: a struct whose arguments have been read once keeps the same parser, for
all that happens later. -/
theorem C95_kept (h h' : List (POp T P K)) (k : K) (ds : List (Decl P))
    (hfirst : answer kind structs (after kind structs special h) k = .ok ds) :
    answer kind structs (after kind structs special (h ++ [.get k] ++ h')) k = .ok ds := by
  have : (after kind structs special (h ++ [.get k] ++ h')).cache k = some ds := by
    rw [after, List.foldl_append]
    apply keeps
    change (after kind structs special (h ++ [.get k])).cache k = some ds
    rw [after_snoc]
    simp [pstep, hfirst]
  rw [answer, this]

/-- C95: a struct that is read for the first time, or was never read without an
error, gets the parsers that were registered last. -/
theorem C95_first (h : List (POp T P K)) (k : K)
    (hnever : ∀ h1 h2, h = h1 ++ .get k :: h2 → ∀ ds,
      answer kind structs (after kind structs special h1) k ≠ .ok ds) :
    answer kind structs (after kind structs special h) k =
      build (fun t => newest special t h.reverse) kind (structs k) := by
  have hc : (after kind structs special h).cache k = none := by
    rw [← List.reverse_reverse h] at hnever ⊢
    generalize h.reverse = r at hnever ⊢
    induction r with
    | nil => rfl
    | cons o r ih =>
      have ih' := ih (fun h1 h2 e => hnever h1 (h2 ++ [o]) (by simp [e]))
      rw [List.reverse_cons, after_snoc]
      cases o with
      | register t p => exact ih'
      | get k' =>
        simp only [pstep]
        split
        · rename_i ds ha
          by_cases e : k = k'
          · subst e
            exact absurd ha (hnever r.reverse [] (by simp) ds)
          · simp [e, ih']
        · exact ih'
  rw [answer, hc]
  simp only
  congr 1
  funext t
  exact after_special kind structs special h t

/-- C95: registering a parser for a type has no effect on functions that have been
called before. -/
theorem C95_register_refuted :
    ∃ (structs : Unit → List (SField Unit)) (h : List (POp Unit Bool Unit)) (ds : List (Decl Bool)),
      answer (fun _ => none) structs
        (after (fun _ => none) structs (fun _ => some false) (h ++ [.register () true])) () = .ok ds ∧
      (∃ d ∈ ds, d.parser = false) ∧
      build (fun _ => some true) (fun _ => none) (structs ()) ≠ .ok ds := by
  refine ⟨fun _ => [⟨bs "Item", bs "required,field=item", (), true⟩], [.get ()],
    [⟨bs "item", 0, true, false⟩], ?_, ?_, ?_⟩ <;> decide +kernel

end

/-- The arguments of split() (functions/functions.go:75-79). -/
example : build (T := Unit) (P := Unit) (fun _ => none) (fun _ => some ())
    [⟨bs "String", bs "required,field=string,doc=The value to split", (), true⟩,
     ⟨bs "Sep", bs "optional,field=sep,doc=The separator regex that will be used to split", (), true⟩,
     ⟨bs "Other", [], (), true⟩,
     ⟨bs "Sep_string", bs "optional", (), true⟩] =
    .ok [⟨bs "string", 0, true, ()⟩, ⟨bs "sep", 1, false, ()⟩, ⟨bs "Sep_string", 3, false, ()⟩] := by
  decide +kernel

example : usual true (bs "string") (some (bs "a = b")) = bs "required,field=string,doc=a = b" ∧
    44 ∉ bs "string" ∧ (∀ c ∈ bs "string", Intro.wordChar c = true) := by decide +kernel

/-- A struct that cannot be read until a parser for the type is registered. -/
example :
    let structs : Unit → List (SField Unit) := fun _ => [⟨bs "Item", bs "required", (), true⟩]
    answer (P := Bool) (fun _ => none) structs (after (fun _ => none) structs (fun _ => none) [.get ()]) () = .err ∧
      answer (P := Bool) (fun _ => none) structs
        (after (fun _ => none) structs (fun _ => none) [.get (), .register () true]) () =
          .ok [⟨bs "Item", 0, true, true⟩] := by decide +kernel

end Vfilter.ArgDecl
