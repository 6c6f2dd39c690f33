import Verif.RoundParse
/-!
# The parsers always have enough fuel

The grammar functions of `Parse` carry a counter, which Go does not have.  Here it is shown that
the counter does not matter: with at least ten times as many rounds as there are tokens (and a few
more) no parser runs out of it, and more of it never changes a result.
-/

set_option linter.all false

namespace Vfilter.Fmt

section
variable {α β : Type}

/-! ## What is left is an end of the input -/

/-- The tokens left are the last ones of the input. -/
def Sfx (p : P α) : Prop := ∀ ts, (∀ a r, p ts = .ok a r → r <:+ ts) ∧ ∀ r, p ts = .err r → r <:+ ts

/-- A match reads at least one token. -/
def Pos (p : P α) : Prop := ∀ ts a r, p ts = .ok a r → r.length < ts.length

theorem Sfx.ret (a : α) : Sfx (Fmt.ret a) := fun ts => by simp [Fmt.ret]

theorem Sfx.fail : Sfx (fun ts => .err ts : P α) := fun ts => by simp

theorem Sfx.fuel : Sfx (fun _ => .fuel : P α) := fun ts => by simp

theorem Sfx.tok (k : TK) : Sfx (Fmt.tok k) := fun ts => by
  cases ts with
  | nil => simp [Fmt.tok]
  | cons t ts => simp only [Fmt.tok]; split <;> simp

theorem Sfx.lit (s : Str) : Sfx (Fmt.lit s) := fun ts => by
  cases ts with
  | nil => simp [Fmt.lit]
  | cons t ts => simp only [Fmt.lit]; split <;> simp

theorem Sfx.need {p : P α} (h : Sfx p) : Sfx (Fmt.need p) := fun ts => by
  unfold Fmt.need
  cases hp : p ts with
  | no => simp
  | fuel => simp
  | ok a r => simpa using (h ts).1 a r hp
  | err r => simpa using (h ts).2 r hp

theorem Sfx.bind {p : P α} {f : α → P β} (h : Sfx p) (hf : ∀ a, Sfx (f a)) : Sfx (p.bind f) := fun ts => by
  unfold P.bind
  cases hp : p ts with
  | no => simp
  | fuel => simp
  | err r => simpa using (h ts).2 r hp
  | ok a r =>
    have h1 := (h ts).1 a r hp
    exact ⟨fun b r2 hb => ((hf a r).1 b r2 hb).trans h1, fun r2 hb => ((hf a r).2 r2 hb).trans h1⟩

theorem Sfx.map {p : P α} (h : Sfx p) (f : α → β) : Sfx (p.map f) := h.bind fun _ => Sfx.ret _

theorem Sfx.opt {p : P α} (h : Sfx p) : Sfx (Fmt.opt p) := fun ts => by
  unfold Fmt.opt
  cases hp : p ts with
  | no => simp
  | fuel => simp
  | ok a r => simpa using (h ts).1 a r hp
  | err r =>
    dsimp only
    split
    · simpa using (h ts).2 r hp
    · simp

theorem Sfx.many {p : P α} (h : Sfx p) : ∀ n, Sfx (Fmt.many p n)
  | 0 => Sfx.fuel
  | n + 1 => fun ts => by
    simp only [Fmt.many]
    cases hp : p ts with
    | no => simp
    | fuel => simp
    | ok a r =>
      have h1 := (h ts).1 a r hp
      have h2 := (Sfx.bind (Sfx.many h n) (fun as => Sfx.ret (a :: as))) r
      exact ⟨fun b r2 hb => (h2.1 b r2 hb).trans h1, fun r2 hb => (h2.2 r2 hb).trans h1⟩
    | err r =>
      dsimp only
      split
      · simpa using (h ts).2 r hp
      · simp

theorem Sfx.alt {p q : P α} (h : Sfx p) (hq : Sfx q) : Sfx (Fmt.alt p q) := fun ts => by
  unfold Fmt.alt
  cases hp : p ts with
  | no => exact hq ts
  | fuel => simp
  | ok a r => simpa using (h ts).1 a r hp
  | err r =>
    dsimp only
    split
    · simpa using (h ts).2 r hp
    · cases hq' : q ts with
      | no => simp
      | fuel => simp
      | ok a r => simpa using (hq ts).1 a r hq'
      | err r2 =>
        dsimp only
        split
        · simpa using (hq ts).2 r2 hq'
        · simp

theorem Sfx.lits : ∀ ss, Sfx (Fmt.lits ss)
  | [] => fun ts => by simp [Fmt.lits]
  | s :: ss => (Sfx.lit s).alt (Sfx.lits ss)

theorem Sfx.comment : Sfx pComment := ((Sfx.tok _).map _).alt (((Sfx.tok _).map _).alt ((Sfx.tok _).map _))
theorem Sfx.optC : Sfx Fmt.optC := Sfx.map (Sfx.opt Sfx.comment) _
theorem Sfx.sepBy {p : P α} (h : Sfx p) (n : Nat) : Sfx (Fmt.sepBy p n) :=
  h.bind fun a => (Sfx.many ((Sfx.lit _).bind fun _ => h.need) n).bind fun as => Sfx.ret _
theorem Sfx.dotted {p : P Str} (h : Sfx p) (n : Nat) : Sfx (Fmt.dotted p n) :=
  h.bind fun a => (Sfx.many ((Sfx.lit _).bind fun d => (Sfx.tok _).need.bind fun i => Sfx.ret _) n).bind
    fun as => Sfx.ret _
theorem Sfx.cmpOp : Sfx Fmt.cmpOp := (Sfx.lits _).alt ((Sfx.tok _).alt (Sfx.lit _))

theorem Pos.fuel : Pos (fun _ => .fuel : P α) := fun ts a r h => by simp at h
theorem Pos.fail : Pos (fun ts => .err ts : P α) := fun ts a r h => by simp at h

theorem Pos.tok (k : TK) : Pos (Fmt.tok k) := fun ts a r h => by
  cases ts with
  | nil => simp [Fmt.tok] at h
  | cons t ts =>
    simp only [Fmt.tok] at h
    split at h
    · simp at h; simp [h.2]
    · simp at h

theorem Pos.lit (s : Str) : Pos (Fmt.lit s) := fun ts a r h => by
  cases ts with
  | nil => simp [Fmt.lit] at h
  | cons t ts =>
    simp only [Fmt.lit] at h
    split at h
    · simp at h; simp [h.2]
    · simp at h

theorem Pos.need {p : P α} (h : Pos p) : Pos (Fmt.need p) := fun ts a r hb => by
  unfold Fmt.need at hb
  split at hb
  · simp at hb
  · exact h ts a r hb

/-- The first part reads something. -/
theorem Pos.bind {p : P α} {f : α → P β} (h : Pos p) (hf : ∀ a, Sfx (f a)) : Pos (p.bind f) := fun ts b r hb => by
  unfold P.bind at hb
  cases hp : p ts with
  | no => rw [hp] at hb; simp at hb
  | fuel => rw [hp] at hb; simp at hb
  | err r => rw [hp] at hb; simp at hb
  | ok a r1 =>
    rw [hp] at hb
    exact Nat.lt_of_le_of_lt ((hf a r1).1 b r hb).length_le (h ts a r1 hp)

/-- The second part reads something. -/
theorem Pos.bind2 {p : P α} {f : α → P β} (h : Sfx p) (hf : ∀ a, Pos (f a)) : Pos (p.bind f) := fun ts b r hb => by
  unfold P.bind at hb
  cases hp : p ts with
  | no => rw [hp] at hb; simp at hb
  | fuel => rw [hp] at hb; simp at hb
  | err r => rw [hp] at hb; simp at hb
  | ok a r1 =>
    rw [hp] at hb
    exact Nat.lt_of_lt_of_le (hf a r1 b r hb) ((h ts).1 a r1 hp).length_le

theorem Pos.map {p : P α} (h : Pos p) (f : α → β) : Pos (p.map f) := h.bind fun _ => Sfx.ret _

theorem Pos.alt {p q : P α} (h : Pos p) (hq : Pos q) : Pos (Fmt.alt p q) := fun ts a r hb => by
  unfold Fmt.alt at hb
  cases hp : p ts with
  | no => rw [hp] at hb; exact hq ts a r hb
  | fuel => rw [hp] at hb; simp at hb
  | ok a r1 => rw [hp] at hb; simp at hb; exact hb.2 ▸ h ts a r1 hp
  | err r1 =>
    rw [hp] at hb
    dsimp only at hb
    split at hb
    · simp at hb
    · cases hq' : q ts with
      | no => rw [hq'] at hb; simp at hb
      | fuel => rw [hq'] at hb; simp at hb
      | ok a r2 => rw [hq'] at hb; simp at hb; exact hb.2 ▸ hq ts a r2 hq'
      | err r2 => rw [hq'] at hb; dsimp only at hb; split at hb <;> simp at hb

theorem Pos.lits : ∀ ss, Pos (Fmt.lits ss)
  | [] => fun ts a r h => by simp [Fmt.lits] at h
  | s :: ss => (Pos.lit s).alt (Pos.lits ss)

theorem Pos.comment : Pos pComment := ((Pos.tok _).map _).alt (((Pos.tok _).map _).alt ((Pos.tok _).map _))
theorem Pos.sepBy {p : P α} (h : Pos p) (hs : Sfx p) (n : Nat) : Pos (Fmt.sepBy p n) :=
  h.bind fun a => (Sfx.many ((Sfx.lit _).bind fun _ => hs.need) n).bind fun as => Sfx.ret _
theorem Pos.dotted {p : P Str} (h : Pos p) (n : Nat) : Pos (Fmt.dotted p n) :=
  h.bind fun a => (Sfx.many ((Sfx.lit _).bind fun d => (Sfx.tok _).need.bind fun i => Sfx.ret _) n).bind
    fun as => Sfx.ret _
theorem Pos.cmpOp : Pos Fmt.cmpOp := (Pos.lits _).alt ((Pos.tok _).alt (Pos.lit _))
end

/-- Both. -/
structure Cuts {α : Type} (p : P α) : Prop where
  sfx : Sfx p
  pos : Pos p

section
variable (lim : Str → Option Int)

/-- All grammar functions with this much fuel. -/
structure CutsAll (n : Nat) : Prop where
  and_ : Cuts (pAnd lim n)
  or_ : Cuts (pOr lim n)
  cond : Cuts (pCond lim n)
  add : Cuts (pAdd lim n)
  mul : Cuts (pMul lim n)
  member : Cuts (pMember lim n)
  comma : Cuts (pComma lim n)
  val : Cuts (pVal lim n)
  sym : Cuts (pSym lim n)
  arg : Cuts (pArg lim n)
  col : Cuts (pCol lim n)
  plugin : Cuts (pPlugin lim n)
  select : Cuts (pSelect lim n)

theorem Cuts.fuel {α : Type} : Cuts (fun _ => .fuel : P α) := ⟨Sfx.fuel, Pos.fuel⟩

/-- One step of the search for a proof of `Sfx`. -/
macro "sfx_step" C:ident : tactic => `(tactic| first
  | exact Sfx.ret _ | exact Sfx.fail | exact Sfx.tok _ | exact Sfx.lit _ | exact Sfx.lits _ | exact Sfx.optC
  | exact Sfx.comment | exact Sfx.cmpOp
  | exact ($C).and_.sfx | exact ($C).or_.sfx | exact ($C).cond.sfx | exact ($C).add.sfx | exact ($C).mul.sfx
  | exact ($C).member.sfx | exact ($C).comma.sfx | exact ($C).val.sfx | exact ($C).sym.sfx | exact ($C).arg.sfx
  | exact ($C).col.sfx | exact ($C).plugin.sfx | exact ($C).select.sfx
  | apply Sfx.need | apply Sfx.opt | apply Sfx.alt | apply Sfx.many | apply Sfx.sepBy | apply Sfx.dotted
  | apply Sfx.map | apply Sfx.bind | split | intro _)

theorem cuts : ∀ n, CutsAll lim n
  | 0 => ⟨by simp only [pAnd]; exact Cuts.fuel, by simp only [pOr]; exact Cuts.fuel,
      by simp only [pCond]; exact Cuts.fuel, by simp only [pAdd]; exact Cuts.fuel,
      by simp only [pMul]; exact Cuts.fuel, by simp only [pMember]; exact Cuts.fuel,
      by simp only [pComma]; exact Cuts.fuel, by simp only [pVal]; exact Cuts.fuel,
      by simp only [pSym]; exact Cuts.fuel, by simp only [pArg]; exact Cuts.fuel,
      by simp only [pCol]; exact Cuts.fuel, by simp only [pPlugin]; exact Cuts.fuel,
      by simp only [pSelect]; exact Cuts.fuel⟩
  | n + 1 =>
    have C := cuts n
    { and_ := by
        simp only [pAnd]
        refine ⟨by repeat' sfx_step C, Pos.bind2 Sfx.optC fun _ => Pos.bind C.or_.pos.need fun _ => by repeat' sfx_step C⟩
      or_ := by
        simp only [pOr]
        refine ⟨by repeat' sfx_step C, Pos.bind2 Sfx.optC fun _ => Pos.bind C.cond.pos.need fun _ => by repeat' sfx_step C⟩
      cond := by
        simp only [pCond]
        refine ⟨by repeat' sfx_step C, Pos.bind2 Sfx.optC fun _ => Pos.need (Pos.alt
          (Pos.bind (Pos.tok _) fun _ => by repeat' sfx_step C) (Pos.bind C.add.pos fun _ => by repeat' sfx_step C))⟩
      add := by
        simp only [pAdd]
        refine ⟨by repeat' sfx_step C, Pos.bind2 Sfx.optC fun _ => Pos.bind C.mul.pos.need fun _ => by repeat' sfx_step C⟩
      mul := by
        simp only [pMul]
        refine ⟨by repeat' sfx_step C, Pos.bind2 Sfx.optC fun _ => Pos.bind C.member.pos.need fun _ => by repeat' sfx_step C⟩
      member := by
        simp only [pMember]
        refine ⟨by repeat' sfx_step C, Pos.bind2 Sfx.optC fun _ => Pos.bind C.val.pos.need fun _ => by repeat' sfx_step C⟩
      comma := by
        simp only [pComma]
        refine ⟨by repeat' sfx_step C, Pos.bind2 Sfx.optC fun _ => Pos.bind C.and_.pos.need fun _ => by repeat' sfx_step C⟩
      val := by
        simp only [pVal]
        refine ⟨by repeat' sfx_step C, Pos.bind2 Sfx.optC fun _ => Pos.bind (Pos.need ?_) fun _ => Sfx.ret _⟩
        exact Pos.alt (C.sym.pos.map _) (Pos.alt (Pos.bind (Pos.lit _) fun _ => by repeat' sfx_step C)
          (Pos.alt (Pos.map (Pos.alt (Pos.tok _) (Pos.tok _)) _) (Pos.alt ((Pos.tok _).map _)
          (Pos.alt ((Pos.tok _).map _) ((Pos.tok _).map _)))))
      sym := by
        simp only [pSym]
        refine ⟨by repeat' sfx_step C, Pos.bind2 Sfx.optC fun _ => Pos.bind
          (Pos.dotted (Pos.alt (Pos.tok _) (Pos.tok _)) _).need fun _ => by repeat' sfx_step C⟩
      arg := by
        simp only [pArg]
        refine ⟨by repeat' sfx_step C, Pos.bind2 Sfx.optC fun _ => Pos.bind (Pos.tok _).need fun _ => by repeat' sfx_step C⟩
      col := by
        simp only [pCol]
        refine ⟨by repeat' sfx_step C, Pos.bind2 (Sfx.comment.many _) fun _ => Pos.bind (Pos.need ?_) fun _ => by repeat' sfx_step C⟩
        exact Pos.alt ((Pos.lit _).map _) (Pos.alt (Pos.bind (Pos.lit _) fun _ => by repeat' sfx_step C)
          (C.and_.pos.map _))
      plugin := by
        simp only [pPlugin]
        refine ⟨by repeat' sfx_step C, Pos.bind (Pos.dotted (Pos.tok _) _) fun _ => by repeat' sfx_step C⟩
      select := by
        simp only [pSelect]
        refine ⟨by repeat' sfx_step C, Pos.bind2 (Sfx.comment.many _) fun _ => Pos.bind2 ((Sfx.tok _).many _) fun _ =>
          Pos.bind (Pos.tok _).need fun _ => by repeat' sfx_step C⟩ }

theorem cuts_stmt (n : Nat) : Cuts (pStmt lim n) := by
  have C := cuts lim n
  have hp : Sfx (pLetParam lim n) := by unfold pLetParam; repeat' sfx_step C
  unfold pStmt
  refine ⟨Sfx.alt ?_ (C.select.sfx.map _), Pos.alt (Pos.bind (Pos.tok _) fun _ => ?_) (C.select.pos.map _)⟩
  · repeat' first | exact hp | sfx_step C
  · repeat' first | exact hp | sfx_step C

theorem cuts_multi : ∀ n, Cuts (pMulti lim n)
  | 0 => Cuts.fuel
  | n + 1 => by
    have h := cuts_multi n
    have hs := cuts_stmt lim n
    simp only [pMulti]
    exact ⟨(Sfx.comment.many _).bind fun _ => hs.sfx.need.bind fun _ => (Sfx.comment.many _).bind fun _ =>
        (h.sfx.many _).bind fun _ => Sfx.ret _,
      Pos.bind2 (Sfx.comment.many _) fun _ => Pos.bind hs.pos.need fun _ => (Sfx.comment.many _).bind fun _ =>
        (h.sfx.many _).bind fun _ => Sfx.ret _⟩
end

/-! ## Enough fuel -/

section
variable {α β : Type}

/-- On inputs of at most `L` tokens the parser does not run out of fuel. -/
def Nf (L : Nat) (p : P α) : Prop := ∀ ts, ts.length ≤ L → p ts ≠ .fuel

theorem Nf.ret {L : Nat} (a : α) : Nf L (Fmt.ret a) := fun ts _ => by simp [Fmt.ret]
theorem Nf.fail {L : Nat} : Nf L (fun ts => .err ts : P α) := fun ts _ => by simp
theorem Nf.tok {L : Nat} (k : TK) : Nf L (Fmt.tok k) := fun ts _ => by
  cases ts with
  | nil => simp [Fmt.tok]
  | cons t ts => simp only [Fmt.tok]; split <;> simp
theorem Nf.lit {L : Nat} (s : Str) : Nf L (Fmt.lit s) := fun ts _ => by
  cases ts with
  | nil => simp [Fmt.lit]
  | cons t ts => simp only [Fmt.lit]; split <;> simp

theorem Nf.mono {L M : Nat} {p : P α} (h : Nf L p) (hm : M ≤ L) : Nf M p := fun ts ht => h ts (by omega)

theorem Nf.need {L : Nat} {p : P α} (h : Nf L p) : Nf L (Fmt.need p) := fun ts ht => by
  have := h ts ht
  unfold Fmt.need
  cases hp : p ts <;> simp_all

theorem Nf.bind {L : Nat} {p : P α} {f : α → P β} (h : Nf L p) (hs : Sfx p) (hf : ∀ a, Nf L (f a)) :
    Nf L (p.bind f) := fun ts ht => by
  have := h ts ht
  unfold P.bind
  cases hp : p ts with
  | no => simp
  | fuel => exact absurd hp this
  | err r => simp
  | ok a r => exact hf a r (Nat.le_trans ((hs ts).1 a r hp).length_le ht)

/-- Behind a part that has read something, there is less input. -/
theorem Nf.bindPos {L : Nat} {p : P α} {f : α → P β} (h : Nf L p) (hs : Pos p)
    (hf : ∀ a, 0 < L → Nf (L - 1) (f a)) : Nf L (p.bind f) := fun ts ht => by
  have := h ts ht
  unfold P.bind
  cases hp : p ts with
  | no => simp
  | fuel => exact absurd hp this
  | err r => simp
  | ok a r =>
    have := hs ts a r hp
    exact hf a (by omega) r (by omega)

theorem Nf.map {L : Nat} {p : P α} (h : Nf L p) (f : α → β) : Nf L (p.map f) := fun ts ht => by
  have := h ts ht
  unfold P.map P.bind
  cases hp : p ts <;> simp_all [Fmt.ret]

theorem Nf.opt {L : Nat} {p : P α} (h : Nf L p) : Nf L (Fmt.opt p) := fun ts ht => by
  have := h ts ht
  unfold Fmt.opt
  cases hp : p ts with
  | no => simp
  | fuel => exact absurd hp this
  | err r => dsimp only; split <;> simp
  | ok a r => simp

theorem Nf.many {p : P α} (hs : Pos p) : ∀ (n L : Nat), L < n → Nf L p → Nf L (Fmt.many p n)
  | 0, L, hl, h => by omega
  | n + 1, L, hl, h => fun ts ht => by
    have := h ts ht
    simp only [Fmt.many]
    cases hp : p ts with
    | no => simp
    | fuel => exact absurd hp this
    | err r => dsimp only; split <;> simp
    | ok a r =>
      have h1 := hs ts a r hp
      have h2 := Nf.many hs n (L - 1) (by omega) (h.mono (by omega)) r (by omega)
      unfold P.bind
      cases hm : Fmt.many p n r with
      | fuel => exact absurd hm h2
      | _ => simp [hm, Fmt.ret]

theorem Nf.alt {L : Nat} {p q : P α} (h : Nf L p) (hq : Nf L q) : Nf L (Fmt.alt p q) := fun ts ht => by
  have h1 := h ts ht
  have h2 := hq ts ht
  unfold Fmt.alt
  cases hp : p ts with
  | no => exact h2
  | fuel => exact absurd hp h1
  | ok a r => simp
  | err r =>
    dsimp only
    split
    · simp
    · cases hq' : q ts with
      | no => simp
      | fuel => exact absurd hq' h2
      | ok a r => simp
      | err r2 => dsimp only; split <;> simp

theorem Nf.lits {L : Nat} : ∀ ss, Nf L (Fmt.lits ss)
  | [] => fun ts _ => by simp [Fmt.lits]
  | s :: ss => (Nf.lit s).alt (Nf.lits ss)
theorem Nf.cmpOp {L : Nat} : Nf L Fmt.cmpOp := (Nf.lits _).alt ((Nf.tok _).alt (Nf.lit _))
theorem Nf.comment {L : Nat} : Nf L pComment := ((Nf.tok _).map _).alt (((Nf.tok _).map _).alt ((Nf.tok _).map _))
theorem Nf.optC {L : Nat} : Nf L Fmt.optC := Nf.map (Nf.opt Nf.comment) _
theorem Nf.sepBy {L n : Nat} {p : P α} (h : Nf L p) (hc : Cuts p) (hn : L ≤ n) : Nf L (Fmt.sepBy p n) :=
  h.bindPos hc.pos fun a hl => Nf.bind (Nf.many (Pos.bind (Pos.lit _) fun _ => hc.sfx.need) _ _ (by omega)
    ((Nf.lit _).bindPos (Pos.lit _) fun _ hl => (h.mono (by omega)).need))
    (Sfx.many ((Sfx.lit _).bind fun _ => hc.sfx.need) _) fun as => Nf.ret _
theorem Nf.dotted {L n : Nat} {p : P Str} (h : Nf L p) (hc : Cuts p) (hn : L ≤ n) : Nf L (Fmt.dotted p n) :=
  h.bindPos hc.pos fun a hl => Nf.bind (Nf.many (Pos.bind (Pos.lit _) fun _ => (Sfx.tok _).need.bind fun _ => Sfx.ret _) _ _ (by omega)
    ((Nf.lit _).bindPos (Pos.lit _) fun _ hl => (Nf.tok _).need.bind (Sfx.tok _).need fun _ => Nf.ret _))
    (Sfx.many ((Sfx.lit _).bind fun _ => (Sfx.tok _).need.bind fun _ => Sfx.ret _) _) fun as => Nf.ret _
end

section
variable (lim : Str → Option Int)

attribute [local irreducible] Sfx Pos Nf

/-- With this much fuel, on this many tokens. -/
structure NfAll (n : Nat) : Prop where
  sym : ∀ L, 10 * L + 1 ≤ n → Nf L (pSym lim n)
  val : ∀ L, 10 * L + 2 ≤ n → Nf L (pVal lim n)
  member : ∀ L, 10 * L + 3 ≤ n → Nf L (pMember lim n)
  mul : ∀ L, 10 * L + 4 ≤ n → Nf L (pMul lim n)
  add : ∀ L, 10 * L + 5 ≤ n → Nf L (pAdd lim n)
  cond : ∀ L, 10 * L + 6 ≤ n → Nf L (pCond lim n)
  or_ : ∀ L, 10 * L + 7 ≤ n → Nf L (pOr lim n)
  and_ : ∀ L, 10 * L + 8 ≤ n → Nf L (pAnd lim n)
  comma : ∀ L, 10 * L + 9 ≤ n → Nf L (pComma lim n)
  arg : ∀ L, 10 * L + 1 ≤ n → Nf L (pArg lim n)
  col : ∀ L, 10 * L + 9 ≤ n → Nf L (pCol lim n)
  plugin : ∀ L, 10 * L + 1 ≤ n → Nf L (pPlugin lim n)
  select : ∀ L, 10 * L + 2 ≤ n → Nf L (pSelect lim n)

/-- One step of the search for a proof of `Pos`. -/
macro "pos_step" C:ident : tactic => `(tactic| first
  | exact Pos.fail | exact Pos.tok _ | exact Pos.lit _ | exact Pos.lits _
  | exact Pos.comment | exact Pos.cmpOp
  | exact ($C).and_.pos | exact ($C).or_.pos | exact ($C).cond.pos | exact ($C).add.pos | exact ($C).mul.pos
  | exact ($C).member.pos | exact ($C).comma.pos | exact ($C).val.pos | exact ($C).sym.pos | exact ($C).arg.pos
  | exact ($C).col.pos | exact ($C).plugin.pos | exact ($C).select.pos
  | apply Pos.need | apply Pos.alt | apply Pos.dotted
  | apply Pos.map | (refine Pos.bind2 Sfx.optC ?_)
  | (refine Pos.bind ?_ (by (repeat' sfx_step $C); fail_if_success (focus skip)))
  | (intro _))

/-- One step of the search for a proof of `Nf`. -/
macro "nf_step" C:ident N:ident : tactic => `(tactic| first
  | exact Nf.ret _ | exact Nf.fail | exact Nf.tok _ | exact Nf.lit _ | exact Nf.lits _ | exact Nf.optC
  | exact Nf.comment | exact Nf.cmpOp
  | exact ($N).and_ _ (by omega) | exact ($N).or_ _ (by omega) | exact ($N).cond _ (by omega)
  | exact ($N).add _ (by omega) | exact ($N).mul _ (by omega)
  | exact ($N).member _ (by omega) | exact ($N).comma _ (by omega) | exact ($N).val _ (by omega)
  | exact ($N).sym _ (by omega) | exact ($N).arg _ (by omega)
  | exact ($N).col _ (by omega) | exact ($N).plugin _ (by omega) | exact ($N).select _ (by omega)
  | apply Nf.need | apply Nf.opt | apply Nf.alt
  | refine Nf.many ?_ _ _ (by omega) ?_
  | refine Nf.sepBy ?_ (by first | exact ($C).arg | exact ($C).col) (by omega)
  | refine Nf.dotted ?_ ⟨by (repeat' sfx_step $C); fail_if_success (focus skip), by (repeat' pos_step $C); fail_if_success (focus skip)⟩ (by omega)
  | apply Nf.map
  | refine Nf.bindPos ?_ (by (repeat' pos_step $C); fail_if_success (focus skip)) ?_
  | refine Nf.bind ?_ (by (repeat' sfx_step $C); fail_if_success (focus skip)) ?_
  | ((repeat' pos_step $C); fail_if_success (focus skip))
  | split | intro _)

theorem nf_sym {n : Nat} (N : NfAll lim n) (L : Nat) (hL : 10 * L + 1 ≤ n + 1) : Nf L (pSym lim (n + 1)) := by
  have C := cuts lim n
  simp only [pSym]
  repeat' nf_step C N

theorem nf_val {n : Nat} (N : NfAll lim n) (L : Nat) (hL : 10 * L + 2 ≤ n + 1) : Nf L (pVal lim (n + 1)) := by
  have C := cuts lim n
  simp only [pVal]
  repeat' nf_step C N

theorem nf_member {n : Nat} (N : NfAll lim n) (L : Nat) (hL : 10 * L + 3 ≤ n + 1) : Nf L (pMember lim (n + 1)) := by
  have C := cuts lim n
  simp only [pMember]
  repeat' nf_step C N

theorem nf_mul {n : Nat} (N : NfAll lim n) (L : Nat) (hL : 10 * L + 4 ≤ n + 1) : Nf L (pMul lim (n + 1)) := by
  have C := cuts lim n
  simp only [pMul]
  repeat' nf_step C N

theorem nf_add {n : Nat} (N : NfAll lim n) (L : Nat) (hL : 10 * L + 5 ≤ n + 1) : Nf L (pAdd lim (n + 1)) := by
  have C := cuts lim n
  simp only [pAdd]
  repeat' nf_step C N

theorem nf_cond {n : Nat} (N : NfAll lim n) (L : Nat) (hL : 10 * L + 6 ≤ n + 1) : Nf L (pCond lim (n + 1)) := by
  have C := cuts lim n
  simp only [pCond]
  repeat' nf_step C N

theorem nf_or_ {n : Nat} (N : NfAll lim n) (L : Nat) (hL : 10 * L + 7 ≤ n + 1) : Nf L (pOr lim (n + 1)) := by
  have C := cuts lim n
  simp only [pOr]
  repeat' nf_step C N

theorem nf_and_ {n : Nat} (N : NfAll lim n) (L : Nat) (hL : 10 * L + 8 ≤ n + 1) : Nf L (pAnd lim (n + 1)) := by
  have C := cuts lim n
  simp only [pAnd]
  repeat' nf_step C N

theorem nf_comma {n : Nat} (N : NfAll lim n) (L : Nat) (hL : 10 * L + 9 ≤ n + 1) : Nf L (pComma lim (n + 1)) := by
  have C := cuts lim n
  simp only [pComma]
  repeat' nf_step C N

theorem nf_arg {n : Nat} (N : NfAll lim n) (L : Nat) (hL : 10 * L + 1 ≤ n + 1) : Nf L (pArg lim (n + 1)) := by
  have C := cuts lim n
  simp only [pArg]
  repeat' nf_step C N

theorem nf_col {n : Nat} (N : NfAll lim n) (L : Nat) (hL : 10 * L + 9 ≤ n + 1) : Nf L (pCol lim (n + 1)) := by
  have C := cuts lim n
  simp only [pCol]
  repeat' nf_step C N

theorem nf_plugin {n : Nat} (N : NfAll lim n) (L : Nat) (hL : 10 * L + 1 ≤ n + 1) : Nf L (pPlugin lim (n + 1)) := by
  have C := cuts lim n
  simp only [pPlugin]
  repeat' nf_step C N

theorem nf_select {n : Nat} (N : NfAll lim n) (L : Nat) (hL : 10 * L + 2 ≤ n + 1) : Nf L (pSelect lim (n + 1)) := by
  have C := cuts lim n
  simp only [pSelect]
  repeat' nf_step C N

theorem nf : ∀ n, NfAll lim n
  | 0 => by constructor <;> (intro L hL; omega)
  | n + 1 =>
    have N := nf n
    ⟨nf_sym lim N, nf_val lim N, nf_member lim N, nf_mul lim N, nf_add lim N, nf_cond lim N, nf_or_ lim N, nf_and_ lim N, nf_comma lim N, nf_arg lim N, nf_col lim N, nf_plugin lim N, nf_select lim N⟩
end

/-! ## More fuel changes nothing -/

section
variable {α β : Type}

/-- Where the first does not run out of fuel, the second gives the same. -/
def More (p q : P α) : Prop := ∀ ts, p ts ≠ .fuel → q ts = p ts

theorem More.refl (p : P α) : More p p := fun _ _ => rfl
theorem More.trans {p q r : P α} (h : More p q) (h2 : More q r) : More p r := fun ts ht => by
  have := h ts ht
  rw [h2 ts (by rw [this]; exact ht), this]
theorem More.fuel (q : P α) : More (fun _ => .fuel : P α) q := fun ts h => absurd rfl h

theorem More.need {p q : P α} (h : More p q) : More (Fmt.need p) (Fmt.need q) := fun ts ht => by
  have := h ts (by intro hp; apply ht; simp [Fmt.need, hp])
  unfold Fmt.need
  rw [this]

theorem More.bind {p q : P α} {f g : α → P β} (h : More p q) (hf : ∀ a, More (f a) (g a)) :
    More (p.bind f) (q.bind g) := fun ts ht => by
  have hq := h ts (by intro hp; apply ht; simp [P.bind, hp])
  unfold P.bind at ht ⊢
  rw [hq]
  cases hp : p ts with
  | ok a r => rw [hp] at ht; exact hf a r ht
  | _ => rfl

theorem More.map {p q : P α} (h : More p q) (f : α → β) : More (p.map f) (q.map f) := h.bind fun _ => More.refl _

theorem More.opt {p q : P α} (h : More p q) : More (Fmt.opt p) (Fmt.opt q) := fun ts ht => by
  have := h ts (by intro hp; apply ht; simp [Fmt.opt, hp])
  unfold Fmt.opt
  rw [this]

theorem More.alt {p q p' q' : P α} (h : More p p') (hq : More q q') : More (Fmt.alt p q) (Fmt.alt p' q') :=
  fun ts ht => by
    have h1 := h ts (by intro hp; apply ht; simp [Fmt.alt, hp])
    unfold Fmt.alt at ht ⊢
    rw [h1]
    cases hp : p ts with
    | ok a r => rfl
    | fuel => rfl
    | no => rw [hp] at ht; exact hq ts ht
    | err r =>
      rw [hp] at ht
      dsimp only at ht ⊢
      split
      · rfl
      · rename_i hf
        rw [if_neg hf] at ht
        rw [hq ts (by intro hp; apply ht; rw [hp])]

theorem More.many {p q : P α} (h : More p q) : ∀ (n m : Nat), n ≤ m → More (Fmt.many p n) (Fmt.many q m)
  | 0, m, _ => More.fuel _
  | n + 1, 0, hm => by omega
  | n + 1, m + 1, hm => fun ts ht => by
    have h1 := h ts (by intro hp; apply ht; simp [Fmt.many, hp])
    simp only [Fmt.many] at ht ⊢
    rw [h1]
    cases hp : p ts with
    | ok a r => rw [hp] at ht; exact (More.bind (More.many h n m (by omega)) (fun as => More.refl _)) r ht
    | _ => rfl

theorem More.sepBy {p q : P α} (h : More p q) {n m : Nat} (hm : n ≤ m) : More (Fmt.sepBy p n) (Fmt.sepBy q m) :=
  h.bind fun a => (More.many ((More.refl _).bind fun _ => h.need) n m hm).bind fun as => More.refl _
theorem More.dotted (p : P Str) {n m : Nat} (hm : n ≤ m) : More (Fmt.dotted p n) (Fmt.dotted p m) :=
  (More.refl p).bind fun a => (More.many (More.refl _) n m hm).bind fun as => More.refl _
end

section
variable (lim : Str → Option Int)

attribute [local irreducible] More

/-- From this much fuel to one more. -/
structure MoreAll (n : Nat) : Prop where
  sym : More (pSym lim n) (pSym lim (n + 1))
  val : More (pVal lim n) (pVal lim (n + 1))
  member : More (pMember lim n) (pMember lim (n + 1))
  mul : More (pMul lim n) (pMul lim (n + 1))
  add : More (pAdd lim n) (pAdd lim (n + 1))
  cond : More (pCond lim n) (pCond lim (n + 1))
  or_ : More (pOr lim n) (pOr lim (n + 1))
  and_ : More (pAnd lim n) (pAnd lim (n + 1))
  comma : More (pComma lim n) (pComma lim (n + 1))
  arg : More (pArg lim n) (pArg lim (n + 1))
  col : More (pCol lim n) (pCol lim (n + 1))
  plugin : More (pPlugin lim n) (pPlugin lim (n + 1))
  select : More (pSelect lim n) (pSelect lim (n + 1))

/-- One step of the search for a proof of `More`. -/
macro "more_step" N:ident : tactic => `(tactic| first
  | exact ($N).and_ | exact ($N).or_ | exact ($N).cond
  | exact ($N).add | exact ($N).mul
  | exact ($N).member | exact ($N).comma | exact ($N).val
  | exact ($N).sym | exact ($N).arg
  | exact ($N).col | exact ($N).plugin | exact ($N).select
  | exact More.refl _
  | apply More.need | apply More.opt | apply More.alt
  | refine More.many ?_ _ _ (by omega)
  | refine More.sepBy ?_ (by omega)
  | refine More.dotted _ (by omega)
  | apply More.map
  | apply More.bind
  | split | intro _)

theorem more_sym {n : Nat} (N : MoreAll lim n) : More (pSym lim (n + 1)) (pSym lim (n + 1 + 1)) := by
  rw [pSym.eq_2 lim n, pSym.eq_2 lim (n + 1)]
  repeat' more_step N

theorem more_val {n : Nat} (N : MoreAll lim n) : More (pVal lim (n + 1)) (pVal lim (n + 1 + 1)) := by
  rw [pVal.eq_2 lim n, pVal.eq_2 lim (n + 1)]
  repeat' more_step N

theorem more_member {n : Nat} (N : MoreAll lim n) : More (pMember lim (n + 1)) (pMember lim (n + 1 + 1)) := by
  rw [pMember.eq_2 lim n, pMember.eq_2 lim (n + 1)]
  repeat' more_step N

theorem more_mul {n : Nat} (N : MoreAll lim n) : More (pMul lim (n + 1)) (pMul lim (n + 1 + 1)) := by
  rw [pMul.eq_2 lim n, pMul.eq_2 lim (n + 1)]
  repeat' more_step N

theorem more_add {n : Nat} (N : MoreAll lim n) : More (pAdd lim (n + 1)) (pAdd lim (n + 1 + 1)) := by
  rw [pAdd.eq_2 lim n, pAdd.eq_2 lim (n + 1)]
  repeat' more_step N

theorem more_cond {n : Nat} (N : MoreAll lim n) : More (pCond lim (n + 1)) (pCond lim (n + 1 + 1)) := by
  rw [pCond.eq_2 lim n, pCond.eq_2 lim (n + 1)]
  repeat' more_step N

theorem more_or_ {n : Nat} (N : MoreAll lim n) : More (pOr lim (n + 1)) (pOr lim (n + 1 + 1)) := by
  rw [pOr.eq_2 lim n, pOr.eq_2 lim (n + 1)]
  repeat' more_step N

theorem more_and_ {n : Nat} (N : MoreAll lim n) : More (pAnd lim (n + 1)) (pAnd lim (n + 1 + 1)) := by
  rw [pAnd.eq_2 lim n, pAnd.eq_2 lim (n + 1)]
  repeat' more_step N

theorem more_comma {n : Nat} (N : MoreAll lim n) : More (pComma lim (n + 1)) (pComma lim (n + 1 + 1)) := by
  rw [pComma.eq_2 lim n, pComma.eq_2 lim (n + 1)]
  repeat' more_step N

theorem more_arg {n : Nat} (N : MoreAll lim n) : More (pArg lim (n + 1)) (pArg lim (n + 1 + 1)) := by
  rw [pArg.eq_2 lim n, pArg.eq_2 lim (n + 1)]
  repeat' more_step N

theorem more_col {n : Nat} (N : MoreAll lim n) : More (pCol lim (n + 1)) (pCol lim (n + 1 + 1)) := by
  rw [pCol.eq_2 lim n, pCol.eq_2 lim (n + 1)]
  repeat' more_step N

theorem more_plugin {n : Nat} (N : MoreAll lim n) : More (pPlugin lim (n + 1)) (pPlugin lim (n + 1 + 1)) := by
  rw [pPlugin.eq_2 lim n, pPlugin.eq_2 lim (n + 1)]
  repeat' more_step N

theorem more_select {n : Nat} (N : MoreAll lim n) : More (pSelect lim (n + 1)) (pSelect lim (n + 1 + 1)) := by
  rw [pSelect.eq_2 lim n, pSelect.eq_2 lim (n + 1)]
  repeat' more_step N

theorem moreAll : ∀ n, MoreAll lim n
  | 0 => ⟨by rw [pSym.eq_1]; exact More.fuel _, by rw [pVal.eq_1]; exact More.fuel _, by rw [pMember.eq_1]; exact More.fuel _, by rw [pMul.eq_1]; exact More.fuel _, by rw [pAdd.eq_1]; exact More.fuel _, by rw [pCond.eq_1]; exact More.fuel _, by rw [pOr.eq_1]; exact More.fuel _, by rw [pAnd.eq_1]; exact More.fuel _, by rw [pComma.eq_1]; exact More.fuel _, by rw [pArg.eq_1]; exact More.fuel _, by rw [pCol.eq_1]; exact More.fuel _, by rw [pPlugin.eq_1]; exact More.fuel _, by rw [pSelect.eq_1]; exact More.fuel _⟩
  | n + 1 =>
    have N := moreAll n
    ⟨more_sym lim N, more_val lim N, more_member lim N, more_mul lim N, more_add lim N, more_cond lim N, more_or_ lim N, more_and_ lim N, more_comma lim N, more_arg lim N, more_col lim N, more_plugin lim N, more_select lim N⟩

theorem more_stmt1 (n : Nat) : More (pStmt lim n) (pStmt lim (n + 1)) := by
  have N := moreAll lim n
  have hp : More (pLetParam lim n) (pLetParam lim (n + 1)) := by unfold pLetParam; repeat' more_step N
  unfold pStmt
  repeat' first | exact hp | more_step N

theorem more_stmt {n m : Nat} (h : n ≤ m) : More (pStmt lim n) (pStmt lim m) := by
  induction h with
  | refl => exact More.refl _
  | @step m _ ih => exact ih.trans (more_stmt1 lim m)

theorem more_and {n m : Nat} (h : n ≤ m) : More (pAnd lim n) (pAnd lim m) := by
  induction h with
  | refl => exact More.refl _
  | @step m _ ih => exact ih.trans (moreAll lim m).and_
end

section
variable (lim : Str → Option Int)

attribute [local irreducible] Sfx Pos Nf

theorem nf_stmt (n L : Nat) (hL : 10 * L + 2 ≤ n) : Nf L (pStmt lim n) := by
  have C := cuts lim n
  have N := nf lim n
  have hc : Cuts (pLetParam lim n) := by
    unfold pLetParam
    exact ⟨by repeat' sfx_step C, by repeat' pos_step C⟩
  have hp : ∀ M, 10 * M + 1 ≤ n → Nf M (pLetParam lim n) := fun M hM => by
    unfold pLetParam
    exact (Nf.map (N.arg M hM) _).alt ((Nf.tok _).map _)
  have hs : ∀ M, 10 * M + 1 ≤ n → Nf M (Fmt.sepBy (pLetParam lim n) n) := fun M hM =>
    Nf.sepBy (hp M hM) hc (by omega)
  have hx : Sfx (opt (Fmt.sepBy (pLetParam lim n) n)) := Sfx.opt (Sfx.sepBy hc.sfx _)
  unfold pStmt
  repeat' first
    | exact hs _ (by omega)
    | refine Nf.bind (Nf.opt (hs _ (by omega))) hx ?_
    | refine Nf.bind (p := opt (P.bind (lit (bs "(")) _)) ?_ (Sfx.opt (Sfx.bind (Sfx.lit _) fun _ =>
        Sfx.bind hx fun _ => Sfx.bind (Sfx.need (Sfx.lit _)) fun _ => Sfx.ret _)) ?_
    | nf_step C N

theorem nf_multi : ∀ (n L : Nat), 10 * L + 3 ≤ n → Nf L (pMulti lim n)
  | 0, L, h => by omega
  | n + 1, L, h => by
    have hc := cuts_multi lim n
    simp only [pMulti]
    refine Nf.bind (Nf.many Pos.comment _ _ (by omega) Nf.comment) (Sfx.comment.many _) fun _ => ?_
    refine Nf.bindPos (nf_stmt lim n L (by omega)).need (cuts_stmt lim n).pos.need fun _ hl => ?_
    refine Nf.bind (Nf.many Pos.comment _ _ (by omega) Nf.comment) (Sfx.comment.many _) fun _ => ?_
    exact Nf.bind (Nf.many hc.pos _ _ (by omega) (nf_multi n _ (by omega))) (hc.sfx.many _) fun _ => Nf.ret _

end

section
variable (lim : Str → Option Int)

/-- **The fuel of the model does not matter**: with as much as `parse` gives, or more, the
statement parser gives one and the same result, and does not run out of it. -/
theorem stmt_fuel (ts : List Tok) (n : Nat) (hn : 10 * ts.length + 2 ≤ n) :
    pStmt lim n ts ≠ .fuel ∧ pStmt lim n ts = pStmt lim (fuelFor ts) ts := by
  have h0 := nf_stmt lim (10 * ts.length + 2) ts.length (Nat.le_refl _) ts (Nat.le_refl _)
  have h1 := more_stmt lim hn ts h0
  have h2 := more_stmt lim (m := fuelFor ts) (by unfold fuelFor; omega) ts h0
  rw [h1, h2]
  exact ⟨h0, rfl⟩

/-- The parser for several statements does not run out of fuel either. -/
theorem multi_fuel (ts : List Tok) : pMulti lim (fuelFor ts) ts ≠ .fuel :=
  nf_multi lim _ ts.length (by unfold fuelFor; omega) ts (Nat.le_refl _)
end

end Vfilter.Fmt
