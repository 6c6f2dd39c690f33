import Verif.RoundNorm
/-!
# Parse, format, parse
-/

set_option linter.all false

namespace Vfilter.Fmt

section
variable (num : Str → Str) (lim : Str → Option Int)

/-- The condition on LET parameters: a default is printable. -/
def kParam : CLetParam → Prop
  | .name n => (unquoteIdent n).getD [] = n
  | .dflt a => kArg num a

/-- The condition on the body of a LET. -/
def kBody : CLetBody → Prop
  | .expr e => kAnd num e
  | .select q => kSelect num q

/-- The statements that are printed as themselves: `kAnd`, and the parameter list of a LET is not
empty, its names are different and without backticks. -/
def kStmt : CStmt → Prop
  | .let_ _ _ called ps _ b => (called = true → ps ≠ []) ∧ (∀ p ∈ ps, kParam num p) ∧
      (ps.map paramName).Nodup ∧ kBody num b
  | .query _ q => kSelect num q

theorem nodup_inj {α β : Type} {f : α → β} : ∀ {l : List α}, (l.map f).Nodup → ∀ a ∈ l, ∀ b ∈ l, f a = f b → a = b
  | [], _, a, ha, _, _, _ => by simp at ha
  | x :: l, h, a, ha, b, hb, e => by
    simp only [List.map_cons, List.nodup_cons, List.mem_map] at h
    rcases List.mem_cons.1 ha with h1 | h1 <;> rcases List.mem_cons.1 hb with h2 | h2
    · rw [h1, h2]
    · exact absurd ⟨b, h2, by rw [← e, h1]⟩ h.1
    · exact absurd ⟨a, h1, by rw [e, h2]⟩ h.1
    · exact nodup_inj h.2 a h1 b h2 e

theorem default_none {ps : List CLetParam} (h : (ps.map paramName).Nodup) {n : Str} (hn : .name n ∈ ps)
    (hp : paramName (.name n) = n) : paramDefault ps n = none := by
  unfold paramDefault
  rw [List.getLast?_eq_none_iff, List.filterMap_eq_nil_iff]
  intro p hp'
  cases p with
  | name m => rfl
  | dflt a =>
    dsimp only
    rw [if_neg]
    intro e
    have := nodup_inj h _ hn _ hp' (by rw [hp]; exact e.symm)
    simp at this

theorem default_some {ps : List CLetParam} (h : (ps.map paramName).Nodup) {a : CArg} (ha : .dflt a ∈ ps) :
    paramDefault ps (argName a) = some a := by
  unfold paramDefault
  have hall : ∀ b ∈ (ps.filterMap fun p => match p with
    | .name _ => none
    | .dflt b => if argName b = argName a then some b else none), b = a := by
    intro b hb
    obtain ⟨p, hp, he⟩ := List.mem_filterMap.1 hb
    cases p with
    | name m => simp at he
    | dflt c =>
      dsimp only at he
      split at he
      · rename_i hn
        simp only [Option.some.injEq] at he
        subst he
        have := nodup_inj h _ hp _ ha hn
        simpa using this
      · simp at he
  have hmem : a ∈ (ps.filterMap fun p => match p with
    | .name _ => none
    | .dflt b => if argName b = argName a then some b else none) :=
    List.mem_filterMap.2 ⟨.dflt a, ha, by simp⟩
  cases hl : (ps.filterMap fun p => match p with
    | .name _ => none
    | .dflt b => if argName b = argName a then some b else none).getLast? with
  | none => rw [List.getLast?_eq_none_iff] at hl; rw [hl] at hmem; simp at hmem
  | some b => rw [hall b (getLast_mem hl)]

/-- What the parser of a LET parameter returns. -/
def readParam : CLetParam → Prop
  | .name m => IsTok .ident m
  | .dflt a => kArg num a → wArg id lim a

/-- What a statement parser returns. -/
theorem reads_stmt (hlim : LimOK lim) (n : Nat) : Post (pStmt lim n) (fun t => kStmt num t → wStmt id lim t) := by
  have R : Reads num lim n := reads hlim n
  unfold pStmt
  refine Post.alt ?_ (R.select.map fun q hq hk => ⟨rfl, hq hk⟩)
  refine (Post.tok _).bind fun _ _ => (Post.textTok (k := .ident)).need.bind fun name hname => ?_
  refine Post.bind (Q := fun (o : Option (List CLetParam)) => ∀ ps, o = some ps → ∀ p ∈ ps, readParam num lim p) ?_ fun o ho => ?_
  · refine Post.opt ((Post.lit _).bind fun _ _ => Post.bind (Post.opt (Post.sepBy (Q := readParam num lim) ?_ n)) fun ps hps => (Post.lit _).need.bind fun _ _ => Post.ret ?_)
    · unfold pLetParam
      exact Post.alt (R.arg.map fun a ha => ha) ((Post.textTok (k := .ident)).map fun a ha => ha)
    · cases ps with
      | none => simp
      | some ps => exact (hps ps rfl).2
  · refine Post.bind (Q := fun op => op = bs "=" ∨ op = bs "<=") (Post.need (Post.alt ((Post.lit _).mono fun _ h => .inl h)
      ((Post.lit _).mono fun _ h => .inr h))) fun op hop => ?_
    refine Post.bind (Q := fun b => kBody num b → wBody id lim b) (Post.need (Post.alt (R.select.map fun q hq hk => hq hk)
      (R.and_.map fun q hq hk => hq hk))) fun b hb => Post.ret ?_
    intro hk
    obtain ⟨h1, h2, h3, h4⟩ := hk
    refine ⟨rfl, hname, ?_, ?_, hop, hb h4⟩
    · cases o with
      | none => rfl
      | some ps =>
        have := h1 rfl
        simp only [Option.getD_some] at this
        simp [this]
    · intro p hp
      have hp' := h2 p hp
      have hq : readParam num lim p := by
        cases o with
        | none => simp at hp
        | some ps => exact ho ps rfl p hp
      cases p with
      | name m => exact ⟨hq, hp', default_none h3 hp hp'⟩
      | dflt a => exact ⟨hq hp', default_some h3 hp⟩

/-- Whatever is parsed is well formed. -/
theorem parse_wf (hlim : LimOK lim) {s : Str} {t : CStmt} (h : parse lim s = some t) (hk : kStmt num t) :
    wStmt id lim t := by
  unfold parse at h
  cases hl : lex s with
  | none => rw [hl] at h; simp at h
  | some ts =>
    rw [hl] at h
    simp only [Option.bind_some, complete] at h
    split at h
    · rename_i a hp
      simp only [Option.some.injEq] at h
      subst h
      exact (reads_stmt num lim hlim _ _ _ _ (lex_good hl) hp).1 hk
    · simp at h

/-! ## Statements with numbers in printed form -/

theorem mParam_name (p : CLetParam) : paramName (mParam num p) = paramName p := by
  cases p with
  | name n => rfl
  | dflt a => exact mArg_name num a

theorem mParam_default (n : Str) : ∀ ps : List CLetParam,
    paramDefault (ps.map (mParam num)) n = (paramDefault ps n).map (mArg num) := by
  intro ps
  unfold paramDefault
  rw [← List.getLast?_map]
  congr 1
  induction ps with
  | nil => rfl
  | cons p ps ih =>
    cases p with
    | name m => simpa [mParam] using ih
    | dflt a =>
      simp only [List.map_cons, mParam, List.filterMap_cons, mArg_name]
      by_cases h : argName a = n
      · simp only [h, if_true, List.map_cons]
        rw [ih]
      · simp only [h, if_false]
        exact ih

theorem z_params (better : Vis → Vis → Bool) (all : List CLetParam) (hall : ∀ p ∈ all, kParam num p) :
    ∀ (ps : List CLetParam) (v : Vis),
    fParams better num (all.map (mParam num)) (ps.map (mParam num)) v = fParams better num all ps v
  | [], v => rfl
  | p :: ps, v => by
    have he : (ps.map (mParam num)).isEmpty = ps.isEmpty := by cases ps <;> rfl
    simp only [List.map_cons, fParams, mParam_name, mParam_default, he]
    cases hd : paramDefault all (paramName p) with
    | none => exact z_params better all hall ps _
    | some a =>
      have hm : kArg num a := by
        unfold paramDefault at hd
        obtain ⟨q, hq, hq2⟩ := List.mem_filterMap.1 (getLast_mem hd)
        cases q with
        | name m => simp at hq2
        | dflt b =>
          dsimp only at hq2
          split at hq2
          · simp only [Option.some.injEq] at hq2
            rw [← hq2]; exact hall _ hq
          · simp at hq2
      simp only [Option.map_some, z_arg num better a _ hm]
      exact z_params better all hall ps _

theorem z_stmt (better : Vis → Vis → Bool) (t : CStmt) (hk : kStmt num t) (v : Vis) :
    fStmt better num (mStmt num t) v = fStmt better num t v := by
  cases t with
  | query cs q => simp only [mStmt, fStmt, z_select num better q _ hk]
  | let_ cs n called ps op b =>
    obtain ⟨_, h2, _, h4⟩ := hk
    have he : (ps.map (mParam num)).isEmpty = ps.isEmpty := by cases ps <;> rfl
    cases b with
    | expr e => simp only [mStmt, fStmt, mBody, he, z_params num better ps h2, z_and num better e _ h4]
    | select q => simp only [mStmt, fStmt, mBody, he, z_params num better ps h2, z_select num better q _ h4]

theorem y_stmt (t : CStmt) (hw : wStmt id lim t) (hk : kStmt num t) : wStmt num lim (mStmt num t) := by
  cases t with
  | query cs q => exact ⟨hw.1, y_select num lim q hw.2 hk⟩
  | let_ cs n called ps op b =>
    obtain ⟨h1, h2, h3, h4, h5, h6⟩ := hw
    obtain ⟨_, k2, _, k4⟩ := hk
    have he : (ps.map (mParam num)).isEmpty = ps.isEmpty := by cases ps <;> rfl
    refine ⟨h1, h2, by rw [he]; exact h3, ?_, h5, ?_⟩
    · intro p hp
      obtain ⟨q, hq, rfl⟩ := List.mem_map.1 hp
      have hw := h4 q hq
      have hkq := k2 q hq
      cases q with
      | name m =>
        refine ⟨hw.1, hw.2.1, ?_⟩
        rw [mParam_default, hw.2.2]; rfl
      | dflt a =>
        refine ⟨y_arg num lim a hw.1 hkq, ?_⟩
        rw [mArg_name, mParam_default, hw.2]; rfl
    · cases b with
      | expr e => exact y_and num lim e h6 k4
      | select q => exact y_select num lim q h6 k4

/-- **Parse, format, parse** gives the statement with its numbers in printed form. -/
theorem parse_format_parse (hlim : LimOK lim) {s : Str} {t : CStmt} (h : parse lim s = some t) (hk : kStmt num t) :
    parse lim (formatStmt num t) = some (mStmt num t) := by
  have hw := y_stmt num lim t (parse_wf num lim hlim h hk) hk
  have he : formatStmt num t = formatStmt num (mStmt num t) := by
    unfold formatStmt
    rw [z_stmt num isBetter t hk]
  rw [he]
  exact parse_format num lim _ hw
end

end Vfilter.Fmt
