import Verif.StmtJoin
/-!
# The grammar in front of other statements

Continues `Verif.StmtJoin` with one theorem for each grammar function.
-/

set_option linter.all false

namespace Vfilter.Fmt

/-! ## The grammar -/

/-- The entries after the first. -/
def commaTail : CComma → List CCommaT
  | .mk _ _ rs => rs

/-- A list of several expressions in front of two comments. -/
def BadC (R : List Tok) (e : CComma) : Prop := ¬ Few R ∧ commaTail e ≠ []

/-- The query ends with a list of several expressions. -/
def endsList : CSelect → Prop
  | .mk _ _ _ _ _ wh gb ob li => ob = none ∧ li = none ∧
    match gb, wh with
    | some c, _ => commaTail c ≠ []
    | none, some c => commaTail c ≠ []
    | none, none => False

/-- Such a query in front of two comments. -/
def BadS (R : List Tok) (q : CSelect) : Prop := ¬ Few R ∧ endsList q

section
variable (lim : Str → Option Int) (R : List Tok)

/-- All grammar functions with this much fuel. -/
structure StaAll (n : Nat) : Prop where
  and_ : Sta R No (pAnd lim n)
  or_ : Sta R No (pOr lim n)
  cond : Sta R No (pCond lim n)
  add : Sta R No (pAdd lim n)
  mul : Sta R No (pMul lim n)
  member : Sta R No (pMember lim n)
  comma : Sta R (BadC R) (pComma lim n)
  val : Sta R No (pVal lim n)
  sym : Sta R No (pSym lim n)
  arg : Sta R No (pArg lim n)
  col : Sta R No (pCol lim n)
  plugin : Sta R No (pPlugin lim n)
  select : Sta R (BadS R) (pSelect lim n)

variable {lim R}

theorem Qt.q0 {α : Type} {p : P α} (h : Qt R p) : Qt0 p := h.1

theorem ret_nil {α : Type} (a : α) : (ret a : P α) [] = .ok a [] := rfl

theorem Qt0.pos {α : Type} {p : P α} (h : Pos p) : Qt0 p := by
  unfold Qt0
  cases hp : p [] with
  | ok a r => have := h [] a r hp; simp at this
  | no => exact .inr (.inl rfl)
  | err r => exact .inr (.inr ⟨r, rfl⟩)
  | fuel => exact .inl rfl

/-! ### Expressions do not start in front of a statement -/

theorem optC_com {t : Tok} (h : t.kind ∈ comKs) (ts : List Tok) : ∃ c, optC (t :: ts) = .ok [c] ts := by
  obtain ⟨k, x⟩ := t
  simp only [comKs, List.mem_cons, List.not_mem_nil, or_false] at h
  rcases h with rfl | rfl | rfl
  · exact ⟨_, rfl⟩
  · exact ⟨_, rfl⟩
  · exact ⟨_, rfl⟩

theorem Beg.ns {R : List Tok} (hR : Beg R) (h : Next comKs [] R) : NS R := by
  cases R with
  | nil => trivial
  | cons t R =>
    refine ⟨fun hm => ?_, fun hm => hR.1 ?_⟩
    · rcases hR.2 with h2 | ⟨h2, _⟩
      · simp only [List.mem_cons, List.not_mem_nil, or_false] at h2
        rcases h2 with h2 | h2 | h2 <;> rw [h2] at hm <;> revert hm <;> decide
      · exact h.1 h2
    · simp only [List.mem_cons, List.not_mem_nil, or_false] at hm
      rw [hm]
      decide

theorem and_few : ∀ n, n < 8 → pAnd lim n [] = .fuel
  | 0, _ => rfl
  | 1, _ => rfl
  | 2, _ => rfl
  | 3, _ => rfl
  | 4, _ => rfl
  | 5, _ => rfl
  | 6, _ => rfl
  | 7, _ => rfl
  | n + 8, h => absurd h (by omega)

theorem qt_and (hR : Beg R) (hF : Few R) (n : Nat) : Qt R (pAnd lim n) := by
  by_cases hn : n < 8
  · exact Qt.fuel (and_few n hn)
  cases R with
  | nil => exact Qt.fl (and_fl (by trivial) (by omega)) (and_fl (by trivial) (by omega))
  | cons t R =>
    by_cases hk : t.kind ∈ comKs
    · refine ⟨Qt0.fl (and_fl (by trivial) (by omega)), .inr (.inr ⟨R, ?_, by simp [tooFar]⟩)⟩
      obtain ⟨c, hc⟩ := optC_com hk R
      have hB : Beg R := by
        rcases hR.2 with h2 | ⟨_, h2⟩
        · simp only [List.mem_cons, List.not_mem_nil, or_false] at h2
          exfalso
          rcases h2 with h2 | h2 | h2 <;> rw [h2] at hk <;> revert hk <;> decide
        · exact h2
      have hN : Next comKs [] R := by
        cases R with
        | nil => trivial
        | cons u R =>
          refine ⟨?_, by simp⟩
          rcases hF with h | h
          · exact absurd hk h
          · exact h
      obtain ⟨m, rfl⟩ : ∃ m, n = m + 1 := ⟨n - 1, by omega⟩
      rw [pAnd, bind_ok hc]
      simp only [P.bind, (or_fl (lim := lim) (n := m) (hB.ns hN) (by omega)).need]
    · have : Next comKs [] (t :: R) := ⟨hk, by simp⟩
      exact Qt.fl (and_fl (by trivial) (by omega)) (and_fl (hR.ns this) (by omega))

theorem qt_comma (hR : Beg R) (f : List Comment → Str → P CCommaT) :
    Qt R (optC.bind fun c1 => (need (lit (bs ","))).bind fun x => f c1 x) := by
  refine ⟨.inr (.inr ⟨[], rfl⟩), .inr (.inr ?_)⟩
  cases R with
  | nil => exact ⟨[], rfl, rfl⟩
  | cons t R =>
    by_cases hk : t.kind ∈ comKs
    · obtain ⟨c, hc⟩ := optC_com hk R
      have hB : Beg R := by
        rcases hR.2 with h2 | ⟨_, h2⟩
        · simp only [List.mem_cons, List.not_mem_nil, or_false] at h2
          exfalso
          rcases h2 with h2 | h2 | h2 <;> rw [h2] at hk <;> revert hk <;> decide
        · exact h2
      refine ⟨R, ?_, by simp [tooFar]⟩
      rw [bind_ok hc]
      have := lit_fl (s := bs ",") (beg_next hB (ks := []) (ss := [bs ","]) (by simp) (by decide))
      simp only [P.bind, this.need]
    · refine ⟨t :: R, ?_, far_self _⟩
      rw [bind_ok (optC_nil (R := t :: R) ⟨hk, by simp⟩)]
      have := lit_fl (s := bs ",") (beg_next hR (ks := []) (ss := [bs ","]) (by simp) (by decide))
      simp only [P.bind, this.need]

/-! ### The end of a query -/

/-- The number after LIMIT. -/
def selEnd (lim : Str → Option Int) (mk : Option Int → CSelect) (l : Option Str) : P CSelect :=
  match l with
  | none => ret (mk none)
  | some t => match lim t with
    | none => fun ts => .err ts
    | some i => ret (mk (some i))

theorem sta_selEnd {b : CSelect → Prop} (mk : Option Int → CSelect) (l : Option Str) : Sta R b (selEnd lim mk l) := by
  unfold selEnd
  cases l with
  | none => exact Sta.ret _
  | some t =>
    cases h : lim t with
    | none => simp only [h]; exact Sta.fail
    | some i => simp only [h]; exact Sta.ret _

theorem zo_selEnd (mk : Option Int → CSelect) (l : Option Str) : Zo R (selEnd lim mk l) := by
  unfold selEnd
  cases l with
  | none => exact Zo.ret _
  | some t =>
    cases h : lim t with
    | none => simp only [h]; exact Zo.fail
    | some i => simp only [h]; exact Zo.ret _

/-- ORDER BY and LIMIT. -/
def selOrder (lim : Str → Option Int) (mk : Option (Str × Bool) → Option Int → CSelect) : P CSelect :=
  (opt ((tok .orderBy).bind fun _ => (need (tok .ident)).bind fun k =>
    (opt (tok .desc)).bind fun d => ret (k, d.isSome))).bind fun ob =>
  (opt ((tok .limit).bind fun _ => need (tok .number))).bind fun l => selEnd lim (mk ob) l

/-- GROUP BY and what follows. -/
def selGroup (lim : Str → Option Int) (n : Nat) (mk : Option CComma → Option (Str × Bool) → Option Int → CSelect) : P CSelect :=
  (opt ((tok .groupBy).bind fun _ => need (pComma lim n))).bind fun gb => selOrder lim (mk gb)

/-- WHERE and what follows. -/
def selWhere (lim : Str → Option Int) (n : Nat)
    (mk : Option CComma → Option CComma → Option (Str × Bool) → Option Int → CSelect) : P CSelect :=
  (opt ((tok .where_).bind fun _ => need (pComma lim n))).bind fun wh => selGroup lim n (mk wh)

theorem selOrder_nil (mk : Option (Str × Bool) → Option Int → CSelect) : selOrder lim mk [] = .ok (mk none none) [] := rfl
theorem selGroup_nil (n : Nat) (mk : Option CComma → Option (Str × Bool) → Option Int → CSelect) :
    selGroup lim n mk [] = .ok (mk none none none) [] := rfl

attribute [local irreducible] Sfx Pos Sta Zo Qt0 Qt NE
attribute [local irreducible] pAnd pOr pCond pAdd pMul pMember pComma pVal pSym pArg pCol pPlugin pSelect
attribute [local irreducible] P.bind P.map Fmt.alt Fmt.opt Fmt.need Fmt.many Fmt.tok Fmt.lit Fmt.ret Fmt.sepBy Fmt.dotted optC
  Fmt.cmpOp Fmt.lits pComment

macro "qt_step" H:ident : tactic => `(tactic| first
  | exact Qt.tok $H (by decide) | exact Qt.lit $H (by decide) | exact Qt.cmpOp $H
  | apply Qt.alt | apply Qt.map | apply Qt.bind)

macro "q0_step" H:ident : tactic => `(tactic| first
  | exact Qt.q0 (Qt.tok $H (by decide)) | exact Qt.q0 (Qt.lit $H (by decide))
  | exact Qt.q0 (Qt.alt (Qt.lit $H (by decide)) (Qt.lit $H (by decide)))
  | apply Qt0.need)

macro "zo_step" C:ident H:ident : tactic => `(tactic| first
  | intro _
  | exact Zo.ret _ | exact Zo.fail | exact Zo.tok $H (by decide) | exact Zo.lit $H (by decide)
  | apply Zo.need | apply Zo.alt
  | refine Zo.opt (by (repeat' qt_step $H); fail_if_success (focus skip))
  | refine Zo.many (by (repeat' qt_step $H); fail_if_success (focus skip)) _
  | refine Zo.bindErr ?_ (by (repeat' q0_step $H); fail_if_success (focus skip))
  | refine Zo.bind ?_ (by (repeat' sfx_step $C); fail_if_success (focus skip)) ?_
  | split)

macro "ne_step" C:ident : tactic => `(tactic| first
  | intro _
  | exact NE.tok (by decide) | exact NE.lit (by decide) | exact NE.cmpOp
  | apply NE.need | apply NE.opt | apply NE.alt
  | refine NE.many ?_ (by (repeat' sfx_step $C); fail_if_success (focus skip)) _
  | refine NE.bind ?_ (by (repeat' sfx_step $C); fail_if_success (focus skip)) ?_)

macro "sta_step" S:ident C:ident H:ident : tactic => `(tactic| first
  | intro _
  | exact Sta.ret _ | exact Sta.fail | exact Sta.tok _ | exact Sta.lit _ | exact Sta.cmpOp
  | exact ($S).and_ | exact ($S).or_ | exact ($S).cond | exact ($S).add | exact ($S).mul
  | exact ($S).member | exact ($S).val | exact ($S).sym | exact ($S).arg | exact ($S).col | exact ($S).plugin
  | apply Sta.need | apply Sta.optNo | apply Sta.alt
  | refine Sta.brk _ _ (by decide) $H ($S).comma.need ($C).comma.sfx.need _
  | refine Sta.brk (b := fun _ => True) _ _ (by decide) $H (($S).comma.opt fun _ _ => trivial) ($C).comma.sfx.opt _
  | refine Sta.brk _ _ (by decide) $H ($S).select.need ($C).select.sfx.need _
  | refine Sta.sepBy $H ?_ (by (repeat' sfx_step $C); fail_if_success (focus skip)) _
  | refine Sta.dotted $H ?_ (by (repeat' sfx_step $C); fail_if_success (focus skip)) _
  | refine Sta.mapNo ?_ (by (repeat' sfx_step $C); fail_if_success (focus skip)) _
  | apply Sta.optC_bind
  | apply Sta.manyC_bind
  | refine Sta.many ?_ (by (repeat' sfx_step $C); fail_if_success (focus skip)) (by (repeat' qt_step $H); fail_if_success (focus skip)) _
  | refine Sta.manyNE ?_ (by (repeat' sfx_step $C); fail_if_success (focus skip)) (by (repeat' ne_step $C); fail_if_success (focus skip)) _
  | refine Sta.bindNE ?_ (by (repeat' sfx_step $C); fail_if_success (focus skip)) (by (repeat' ne_step $C); fail_if_success (focus skip)) ?_
  | refine Sta.bindNo ?_ (by (repeat' sfx_step $C); fail_if_success (focus skip)) ?_ (by (repeat' zo_step $C $H); fail_if_success (focus skip))
  | split)

theorem sta_and {n : Nat} (hR : Beg R) (S : StaAll lim R n) : Sta R No (pAnd lim (n + 1)) := by
  have C := cuts lim n
  rw [pAnd.eq_2]
  repeat' sta_step S C hR
theorem sta_or {n : Nat} (hR : Beg R) (S : StaAll lim R n) : Sta R No (pOr lim (n + 1)) := by
  have C := cuts lim n
  rw [pOr.eq_2]
  repeat' sta_step S C hR
theorem sta_cond {n : Nat} (hR : Beg R) (S : StaAll lim R n) : Sta R No (pCond lim (n + 1)) := by
  have C := cuts lim n
  rw [pCond.eq_2]
  repeat' sta_step S C hR
theorem sta_add {n : Nat} (hR : Beg R) (S : StaAll lim R n) : Sta R No (pAdd lim (n + 1)) := by
  have C := cuts lim n
  rw [pAdd.eq_2]
  repeat' sta_step S C hR
theorem sta_mul {n : Nat} (hR : Beg R) (S : StaAll lim R n) : Sta R No (pMul lim (n + 1)) := by
  have C := cuts lim n
  rw [pMul.eq_2]
  repeat' sta_step S C hR
theorem sta_val {n : Nat} (hR : Beg R) (S : StaAll lim R n) : Sta R No (pVal lim (n + 1)) := by
  have C := cuts lim n
  rw [pVal.eq_2]
  repeat' sta_step S C hR
theorem sta_sym {n : Nat} (hR : Beg R) (S : StaAll lim R n) : Sta R No (pSym lim (n + 1)) := by
  have C := cuts lim n
  rw [pSym.eq_2]
  repeat' sta_step S C hR
theorem sta_arg {n : Nat} (hR : Beg R) (S : StaAll lim R n) : Sta R No (pArg lim (n + 1)) := by
  have C := cuts lim n
  rw [pArg.eq_2]
  repeat' sta_step S C hR
theorem sta_col {n : Nat} (hR : Beg R) (S : StaAll lim R n) : Sta R No (pCol lim (n + 1)) := by
  have C := cuts lim n
  rw [pCol.eq_2]
  repeat' sta_step S C hR
theorem sta_plugin {n : Nat} (hR : Beg R) (S : StaAll lim R n) : Sta R No (pPlugin lim (n + 1)) := by
  have C := cuts lim n
  rw [pPlugin.eq_2]
  repeat' sta_step S C hR

theorem sta_member {n : Nat} (hR : Beg R) (S : StaAll lim R n) : Sta R No (pMember lim (n + 1)) := by
  have C := cuts lim n
  rw [pMember.eq_2]
  have hb : ∀ (g : List CVal → List Str → List CVal → CMTerm), Sta R No ((lit (bs "[")).bind fun _ => (many (pVal lim n) n).bind fun is =>
          (many (lit (bs ":")) n).bind fun cl => (many (pVal lim n) n).bind fun js =>
          (need (lit (bs "]"))).bind fun _ => ret (g is cl js)) := by
    intro g
    have q0 : Qt0 (pVal lim n) := Qt0.pos C.val.pos
    have qc : Qt0 (lit (bs ":")) := Qt.q0 (Qt.lit hR (by decide))
    refine Sta.open (by decide) fun _ => ?_
    refine StaE.bind (Sta.manyAny S.val C.val.sfx q0 n) (C.val.sfx.many n) (fun is => ?_) (fun is => ?_)
    · refine StaE.bind (b := No) (Sta.many (Sta.lit _) (Sfx.lit _) (Qt.lit hR (by decide)) n) ((Sfx.lit _).many n) (fun cl => ?_) (fun cl => ?_)
      · refine StaE.bind (Sta.manyAny S.val C.val.sfx q0 n) (C.val.sfx.many n) (fun js => ?_) (fun js => ?_)
        · exact (Sta.bindNo (Sta.lit _).need (Sfx.lit _).need (fun _ => Sta.ret _) fun _ => Zo.ret _).toE
        · exact EndErr.need_lit _ _
      · exact EndErr.many q0 n fun _ => EndErr.need_lit _ _
    · exact EndErr.many qc n fun _ => EndErr.many q0 n fun _ => EndErr.need_lit _ _
  have hb' := hb fun is cl js => (if cl.isEmpty then
              match is.getLast? with
              | some i => CMTerm.index i
              | none => CMTerm.empty
            else CMTerm.range is.getLast? js.getLast?)
  repeat' first | exact hb' | sta_step S C hR

theorem sta_comma {n : Nat} (hR : Beg R) (S : StaAll lim R n) : Sta R (BadC R) (pComma lim (n + 1)) := by
  have C := cuts lim n
  rw [pComma.eq_2]
  have hsfx : Sfx (optC.bind fun c1 => (need (lit (bs ","))).bind fun _ => optC.bind fun c2 =>
        (many (pAnd lim n) n).bind fun ts => ret (CCommaT.mk c1 c2 ts.getLast?)) := by repeat' sfx_step C
  have hq := qt_comma hR fun c1 _ => optC.bind fun c2 =>
        (many (pAnd lim n) n).bind fun ts => ret (CCommaT.mk c1 c2 ts.getLast?)
  apply Sta.optC_bind
  intro cs
  refine Sta.bindNo S.and_.need C.and_.sfx.need (fun l => ?_) fun l => Zo.bind (Zo.many hq n) (hsfx.many n) fun _ => Zo.ret _
  by_cases hF : Few R
  · have hb : Sta R No (optC.bind fun c1 => (need (lit (bs ","))).bind fun _ => optC.bind fun c2 =>
        (many (pAnd lim n) n).bind fun ts => ret (CCommaT.mk c1 c2 ts.getLast?)) := by
      refine Sta.optC_bind fun c1 => Sta.bindNE (Sta.lit _).need (Sfx.lit _).need (NE.need (NE.lit (by decide))) fun _ => Sta.optC_bind fun c2 => ?_
      exact Sta.bindNo (Sta.many S.and_ C.and_.sfx (qt_and hR hF n) n) (C.and_.sfx.many n) (fun _ => Sta.ret _) fun _ => Zo.ret _
    exact Sta.bindNo (Sta.many hb hsfx hq n) (hsfx.many n) (fun _ => Sta.ret _) fun _ => Zo.ret _
  · have hb : Sta R (fun _ => True) (optC.bind fun c1 => (need (lit (bs ","))).bind fun _ => optC.bind fun c2 =>
        (many (pAnd lim n) n).bind fun ts => ret (CCommaT.mk c1 c2 ts.getLast?)) := by
      refine Sta.optC_bind fun c1 => Sta.bindNE (Sta.lit _).need (Sfx.lit _).need (NE.need (NE.lit (by decide))) fun _ => Sta.optC_bind fun c2 => ?_
      exact Sta.bind (Sta.manyAny S.and_ C.and_.sfx (Qt0.pos C.and_.pos) n) (C.and_.sfx.many n) (fun _ => Sta.ret _) (fun _ => Zo.ret _)
        fun as h => .inr ⟨_, ret_nil _, trivial⟩
    exact Sta.bind (Sta.manyAny hb hsfx hq.q0 n) (hsfx.many n) (fun _ => Sta.ret _) (fun _ => Zo.ret _)
      fun as h => .inr ⟨_, ret_nil _, hF, h⟩

theorem sta_selOrder (hR : Beg R) {b : CSelect → Prop} (mk : Option (Str × Bool) → Option Int → CSelect) :
    Sta R b (selOrder lim mk) ∧ Zo R (selOrder lim mk) := by
  have C := cuts lim 0
  unfold selOrder
  have s1 : Sfx (opt ((tok .limit).bind fun _ => need (tok .number))) := by repeat' sfx_step C
  have s2 : Sfx (opt ((tok .orderBy).bind fun _ => (need (tok .ident)).bind fun k =>
    (opt (tok .desc)).bind fun d => ret (k, d.isSome))) := by repeat' sfx_step C
  have z1 : Zo R (opt ((tok .limit).bind fun _ => need (tok .number))) := by repeat' zo_step C hR
  have z2 : Zo R (opt ((tok .orderBy).bind fun _ => (need (tok .ident)).bind fun k =>
    (opt (tok .desc)).bind fun d => ret (k, d.isSome))) := by repeat' zo_step C hR
  have z3 : ∀ ob, Zo R ((opt ((tok .limit).bind fun _ => need (tok .number))).bind fun l => selEnd lim (mk ob) l) :=
    fun ob => Zo.bind z1 s1 fun l => zo_selEnd _ _
  refine ⟨Sta.bindNo ?_ s2 (fun ob => Sta.bindNo ?_ s1 (fun l => sta_selEnd _ _) fun l => zo_selEnd _ _) z3, Zo.bind z2 s2 z3⟩
  · refine Sta.optNo (Sta.bindNE (Sta.tok _) (Sfx.tok _) (NE.tok (by decide)) fun _ => ?_)
    refine Sta.bindNo (Sta.tok _).need (Sfx.tok _).need (fun k => ?_) fun k => ?_
    · exact Sta.bindNo (Sta.optNo (Sta.tok _)) (Sfx.tok _).opt (fun _ => Sta.ret _) fun _ => Zo.ret _
    · exact Zo.bind (Zo.opt (Qt.tok hR (by decide))) (Sfx.tok _).opt fun _ => Zo.ret _
  · exact Sta.optNo (Sta.bindNE (Sta.tok _) (Sfx.tok _) (NE.tok (by decide)) fun _ => (Sta.tok _).need)

theorem sta_selGroup {n : Nat} (hR : Beg R) (S : StaAll lim R n) {b : CSelect → Prop}
    (mk : Option CComma → Option (Str × Bool) → Option Int → CSelect) (hb : ∀ c, BadC R c → b (mk (some c) none none)) :
    Sta R b (selGroup lim n mk) ∧ Zo R (selGroup lim n mk) := by
  have C := cuts lim n
  have hs : Sfx (opt ((tok .groupBy).bind fun _ => need (pComma lim n))) := by repeat' sfx_step C
  have hq : Qt R ((tok .groupBy).bind fun _ => need (pComma lim n)) := by repeat' qt_step hR
  refine ⟨Sta.bind (b := fun o => ∃ c, o = some c ∧ BadC R c) ?_ hs (fun _ => (sta_selOrder hR _).1)
    (fun _ => (sta_selOrder (b := No) hR _).2) ?_, Zo.bind (Zo.opt hq) hs fun _ => (sta_selOrder (b := No) hR _).2⟩
  · exact Sta.opt (Sta.bindNE (Sta.tok _) (Sfx.tok _) (NE.tok (by decide)) fun _ => S.comma.need) fun c hc => ⟨c, rfl, hc⟩
  · rintro _ ⟨c, rfl, hc⟩
    exact .inr ⟨_, selOrder_nil _, hb c hc⟩

theorem sta_selWhere {n : Nat} (hR : Beg R) (S : StaAll lim R n) {b : CSelect → Prop}
    (mk : Option CComma → Option CComma → Option (Str × Bool) → Option Int → CSelect)
    (hb : ∀ c, BadC R c → b (mk (some c) none none none)) (hb2 : ∀ w c, BadC R c → b (mk w (some c) none none)) :
    Sta R b (selWhere lim n mk) ∧ Zo R (selWhere lim n mk) := by
  have C := cuts lim n
  have hs : Sfx (opt ((tok .where_).bind fun _ => need (pComma lim n))) := by repeat' sfx_step C
  have hq : Qt R ((tok .where_).bind fun _ => need (pComma lim n)) := by repeat' qt_step hR
  refine ⟨Sta.bind (b := fun o => ∃ c, o = some c ∧ BadC R c) ?_ hs (fun w => (sta_selGroup hR S _ (hb2 w)).1)
    (fun w => (sta_selGroup hR S _ (hb2 w)).2) ?_, Zo.bind (Zo.opt hq) hs fun w => (sta_selGroup hR S _ (hb2 w)).2⟩
  · exact Sta.opt (Sta.bindNE (Sta.tok _) (Sfx.tok _) (NE.tok (by decide)) fun _ => S.comma.need) fun c hc => ⟨c, rfl, hc⟩
  · rintro _ ⟨c, rfl, hc⟩
    exact .inr ⟨_, selGroup_nil _ _, hb c hc⟩

theorem select_eq (n : Nat) : pSelect lim (n + 1) = (many pComment n).bind fun cs => (many (tok .explain) n).bind fun ex =>
      (need (tok .select)).bind fun _ =>
      (opt ((lit (bs "*")).bind fun _ => opt (lit (bs ",")))).bind fun all =>
      (opt (sepBy (pCol lim n) n)).bind fun cols =>
      (if all.isNone ∧ cols.isNone then fun ts => .err ts else
      (need (tok .from_)).bind fun _ => (need (pPlugin lim n)).bind fun from_ =>
      selWhere lim n (CSelect.mk cs (!ex.isEmpty) all.isSome (cols.getD []) from_)) := by
  rw [pSelect.eq_2]
  rfl

theorem sta_select {n : Nat} (hR : Beg R) (S : StaAll lim R n) : Sta R (BadS R) (pSelect lim (n + 1)) := by
  have C := cuts lim n
  rw [select_eq]
  have hW : ∀ cs ex all cols f, Sta R (BadS R) (selWhere lim n (CSelect.mk cs ex all cols f)) ∧ Zo R (selWhere lim n (CSelect.mk cs ex all cols f)) := by
    intro cs ex all cols f
    refine sta_selWhere hR S _ (fun c hc => ⟨hc.1, rfl, rfl, hc.2⟩) (fun w c hc => ⟨hc.1, rfl, rfl, ?_⟩)
    exact hc.2
  have hz := fun cs ex all cols f => (hW cs ex all cols f).2
  have hw := fun cs ex all cols f => (hW cs ex all cols f).1
  clear hW
  have hf : ∀ cs (ex : Bool) (all : Option (Option Str)) (cols : Option (List CCol)),
      Sta R (BadS R) (if all.isNone ∧ cols.isNone then fun ts => .err ts else
      (need (tok .from_)).bind fun _ => (need (pPlugin lim n)).bind fun from_ =>
      selWhere lim n (CSelect.mk cs ex all.isSome (cols.getD []) from_)) := by
    intro cs ex all cols
    split
    · exact Sta.fail
    · refine Sta.bindNE (Sta.tok _).need (Sfx.tok _).need (NE.need (NE.tok (by decide))) fun _ => ?_
      exact Sta.bindNo (Sta.need S.plugin) C.plugin.sfx.need (fun _ => hw _ _ _ _ _) (fun _ => hz _ _ _ _ _)
  have hfz : ∀ cs (ex : Bool) (all : Option (Option Str)) (cols : Option (List CCol)),
      Zo R (if all.isNone ∧ cols.isNone then fun ts => .err ts else
      (need (tok .from_)).bind fun _ => (need (pPlugin lim n)).bind fun from_ =>
      selWhere lim n (CSelect.mk cs ex all.isSome (cols.getD []) from_)) := by
    intro cs ex all cols
    split
    · exact Zo.fail
    · exact Zo.bindErr (Zo.need (Zo.tok hR (by decide))) (Qt0.need (Qt.q0 (Qt.tok hR (by decide))))
  refine Sta.manyC_bind n fun cs => ?_
  refine Sta.bindNE (Sta.manyNE (Sta.tok _) (Sfx.tok _) (NE.tok (by decide)) n) ((Sfx.tok _).many n)
    (NE.many (NE.tok (by decide)) (Sfx.tok _) n) fun ex => ?_
  refine Sta.bindNE (Sta.tok _).need (Sfx.tok _).need (NE.need (NE.tok (by decide))) fun _ => ?_
  refine Sta.bindNE (Sta.optNo ?_) (by repeat' sfx_step C) (by repeat' ne_step C) fun all => ?_
  · exact Sta.bindNE (Sta.lit _) (Sfx.lit _) (NE.lit (by decide)) fun _ => Sta.optNo (Sta.lit _)
  · exact Sta.bindNo (Sta.optNo (Sta.sepBy hR S.col C.col.sfx n)) (C.col.sfx.sepBy n).opt
      (fun cols => hf _ _ _ _) fun cols => hfz _ _ _ _

theorem sta (hR : Beg R) : ∀ n, StaAll lim R n
  | 0 => ⟨by rw [pAnd.eq_1]; exact Sta.fuel, by rw [pOr.eq_1]; exact Sta.fuel,
      by rw [pCond.eq_1]; exact Sta.fuel, by rw [pAdd.eq_1]; exact Sta.fuel,
      by rw [pMul.eq_1]; exact Sta.fuel, by rw [pMember.eq_1]; exact Sta.fuel,
      by rw [pComma.eq_1]; exact Sta.fuel, by rw [pVal.eq_1]; exact Sta.fuel,
      by rw [pSym.eq_1]; exact Sta.fuel, by rw [pArg.eq_1]; exact Sta.fuel,
      by rw [pCol.eq_1]; exact Sta.fuel, by rw [pPlugin.eq_1]; exact Sta.fuel,
      by rw [pSelect.eq_1]; exact Sta.fuel⟩
  | n + 1 =>
    have S := sta hR n
    ⟨sta_and hR S, sta_or hR S, sta_cond hR S, sta_add hR S, sta_mul hR S, sta_member hR S, sta_comma hR S,
      sta_val hR S, sta_sym hR S, sta_arg hR S, sta_col hR S, sta_plugin hR S, sta_select hR S⟩

/-- The statement ends with a list of several expressions. -/
def stmtEndsList : CStmt → Prop
  | .let_ _ _ _ _ _ (.select q) => endsList q
  | .let_ _ _ _ _ _ (.expr _) => False
  | .query _ q => endsList q

/-- Such a statement in front of two comments. -/
def BadStmt (R : List Tok) (s : CStmt) : Prop := ¬ Few R ∧ stmtEndsList s

theorem sta_stmt (hR : Beg R) (n : Nat) : Sta R (BadStmt R) (pStmt lim n) := by
  have C := cuts lim n
  have S := sta (lim := lim) hR n
  have hp : Sta R No (pLetParam lim n) := by unfold pLetParam; repeat' sta_step S C hR
  have hps : Sfx (pLetParam lim n) := by unfold pLetParam; repeat' sfx_step C
  have hargs : Sta R No ((lit (bs "(")).bind fun _ => (opt (sepBy (pLetParam lim n) n)).bind fun ps =>
        (need (lit (bs ")"))).bind fun _ => ret (ps.getD [])) :=
    Sta.brk (b := No) _ _ (by decide) hR (Sta.optNo (Sta.sepBy hR hp hps n)) (hps.sepBy n).opt (fun ps => ps.getD [])
  have hargss : Sfx (opt ((lit (bs "(")).bind fun _ => (opt (sepBy (pLetParam lim n) n)).bind fun ps =>
        (need (lit (bs ")"))).bind fun _ => ret (ps.getD []))) := by
    repeat' first | exact hps | sfx_step C
  unfold pStmt
  refine Sta.alt ?_ (S.select.map C.select.sfx _ fun q hq => ⟨hq.1, hq.2⟩)
  refine Sta.bindNE (Sta.tok _) (Sfx.tok _) (NE.tok (by decide)) fun _ => ?_
  refine Sta.bindNo (Sta.tok _).need (Sfx.tok _).need (fun name => ?_) (by repeat' zo_step C hR)
  refine Sta.bindNo (Sta.optNo hargs) hargss (fun ps => ?_) (by repeat' zo_step C hR)
  refine Sta.bindNE (by repeat' sta_step S C hR) (by repeat' sfx_step C) (by repeat' ne_step C) (fun op => ?_)
  refine Sta.bind (b := fun b => ¬ Few R ∧ match b with | .select q => endsList q | .expr _ => False) ?_ (by repeat' sfx_step C)
    (fun _ => Sta.ret _) (fun _ => Zo.ret _) ?_
  · refine Sta.need (Sta.alt (S.select.map C.select.sfx _ fun q hq => ⟨hq.1, hq.2⟩) (Sta.mapNo S.and_ C.and_.sfx _))
  · intro b hb
    refine .inr ⟨_, ret_nil _, hb.1, ?_⟩
    cases b with
    | select q => exact hb.2
    | expr e => exact hb.2.elim

end
end Vfilter.Fmt
