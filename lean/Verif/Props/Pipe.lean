import Verif.Pipe
import Verif.Props.Conc
/-!
# C74: nested queries compute their composition, and their goroutines end
-/
set_option linter.all false

namespace Vfilter.Pipe

variable {V : Type}

/-- The rows of SELECT: each row is transformed, given the rows before it. -/
def selRows (f : List V → V → Option V) : List V → List V → List V
  | _, [] => []
  | h, v :: r => (f h v).toList ++ selRows f (h ++ [v]) r

/-- The rows of a query: those of the inner query are computed first. -/
def Query.rows : Query V → List V
  | .src rows => rows
  | .select f q => selRows f [] q.rows
  | .group g q => g q.rows
  | .order srt q => srt q.rows
  | .limit n q => q.rows.take (max 1 n).toNat
  | .stored q => q.rows
  | .flatten f q => q.rows.flatMap f
  | .chain a b => a.rows ++ b.rows
  | .stmt q => q.rows

/-! ## What a stage makes of its input -/

/-- The rows a goroutine sends if it receives these rows, having received `h` before. -/
def Stage.run (s : Stage V) : List V → List V → List V
  | h, [] => s.flush h
  | h, v :: r => s.emit h v ++ (if s.last h v then [] else s.run (h ++ [v]) r)

/-- The rows that pass through the channel of these goroutines, from the start. -/
def Net.den : Net V → List V
  | .stage s _ _ _ t => s.run [] t.den
  | .seq a b => a.den ++ b.den
  | .after _ _ => []
  | .nil => []

/-- All at their start. -/
def Net.Fresh : Net V → Prop
  | .stage _ h pc c t => h = [] ∧ pc = .waiting ∧ c = false ∧ t.Fresh
  | .seq a b => a.Fresh ∧ b.Fresh
  | .after _ _ => False
  | .nil => True

theorem net_fresh (q : Query V) : q.net.Fresh := by
  induction q <;> simp_all [Query.net, start, Net.Fresh]

theorem run_fwd {s : Stage V} (h1 : s.emit = fun _ v => [v]) (h2 : s.last = fun _ _ => false)
    (h3 : s.flush = fun _ => []) (h l : List V) : s.run h l = l := by
  induction l generalizing h with
  | nil => simp [Stage.run, h3]
  | cons v r ih => simp [Stage.run, h1, h2, ih]

theorem run_collect {s : Stage V} (h1 : s.emit = fun _ _ => []) (h2 : s.last = fun _ _ => false)
    (h l : List V) : s.run h l = s.flush (h ++ l) := by
  induction l generalizing h with
  | nil => simp [Stage.run]
  | cons v r ih => simp [Stage.run, h1, h2, ih]

theorem run_sel (f : List V → V → Option V) (h l : List V) : (selS f).run h l = selRows f h l := by
  induction l generalizing h with
  | nil => simp [Stage.run, selS, selRows]
  | cons v r ih =>
    have := ih (h ++ [v])
    simp only [Stage.run, selRows]
    rw [this]
    simp [selS]

theorem run_flat (f : V → List V) (h l : List V) : (flatS f).run h l = l.flatMap f := by
  induction l generalizing h with
  | nil => simp [Stage.run, flatS]
  | cons v r ih =>
    simp only [Stage.run]
    rw [ih (h ++ [v])]
    simp [flatS]

theorem run_lim (n : Int) (h l : List V) (hh : h = [] ∨ (h.length : Int) < n) :
    (limS n).run h l = l.take ((max 1 n).toNat - h.length) := by
  induction l generalizing h with
  | nil => simp [Stage.run, limS]
  | cons v r ih =>
    simp only [Stage.run]
    have e1 : (limS n : Stage V).emit h v = [v] := rfl
    have e2 : (limS n : Stage V).last h v = decide ((h.length : Int) + 2 > n) := rfl
    rw [e1, e2]
    have hp : 0 < (max 1 n).toNat - h.length := by
      rcases hh with rfl | hh
      · simp; omega
      · omega
    obtain ⟨m, hm⟩ : ∃ m, (max 1 n).toNat - h.length = m + 1 := ⟨(max 1 n).toNat - h.length - 1, by omega⟩
    rw [hm, List.take_succ_cons, List.singleton_append]
    congr 1
    by_cases hl : (h.length : Int) + 2 > n
    · rw [if_pos (by simpa using hl)]
      have : m = 0 := by omega
      simp [this]
    · rw [if_neg (by simpa using hl), ih _ (.inr (by simp; omega))]
      congr 1
      simp
      omega

theorem den_net (q : Query V) : q.net.den = q.rows := by
  induction q with
  | src rows => simp [Query.net, start, Net.den, Stage.run, srcS, Query.rows]
  | select f q ih => simp [Query.net, start, Net.den, Query.rows, run_sel, run_fwd (s := fwdS) rfl rfl rfl, ih]
  | group g q ih =>
    simp [Query.net, start, Net.den, Query.rows, run_collect (s := grpS g) rfl rfl, run_fwd (s := fwdS) rfl rfl rfl, ih]
    rfl
  | order srt q ih =>
    simp [Query.net, start, Net.den, Query.rows, run_collect (s := srtS srt) rfl rfl, run_fwd (s := feedS) rfl rfl rfl, ih]
    rfl
  | limit n q ih => simp [Query.net, start, Net.den, Query.rows, run_lim, ih]
  | stored q ih => simp [Query.net, start, Net.den, Query.rows, run_fwd (s := fwdS) rfl rfl rfl, ih]
  | flatten f q ih => simp [Query.net, start, Net.den, Query.rows, run_flat, ih]
  | chain a b iha ihb => simp [Query.net, start, Net.den, Query.rows, run_fwd (s := fwdS) rfl rfl rfl, iha, ihb]
  | stmt q ih => simp [Query.net, start, Net.den, Query.rows, run_fwd (s := stmtS) rfl rfl rfl, ih]

/-! ## The rows, on every schedule -/

/-- `n` is a state of the goroutines `p` after they have sent `out`, without cancellation from outside. -/
def Inv : Net V → Net V → List V → Prop
  | .stage s _ _ _ tp, n, out => match n with
    | .stage s' h pc c t => s' = s ∧ c = false ∧ match pc with
      | .waiting => Inv tp t h ∧ ∀ rest, s.run [] (h ++ rest) = out ++ s.run h rest
      | .sending p false => Inv tp t h ∧ ∀ rest, s.run [] (h ++ rest) = out ++ p ++ s.run h rest
      | .sending p true => out ++ p = s.run [] tp.den
      | .closed => out = s.run [] tp.den
    | _ => False
  | .seq a b, n, out => match n with
    | .seq n1 n2 => n2 = b ∧ Inv a n1 out
    | .after _ n2 => ∃ o2, out = a.den ++ o2 ∧ Inv b n2 o2
    | _ => False
  | .after _ _, _, _ => False
  | .nil, n, out => n = .nil ∧ out = []

theorem inv_fresh {p : Net V} (h : p.Fresh) : Inv p p [] := by
  induction p with
  | stage s hist pc c t ih =>
    obtain ⟨rfl, rfl, rfl, ht⟩ := h
    exact ⟨rfl, rfl, ih ht, fun _ => rfl⟩
  | seq a b iha ihb => exact ⟨rfl, iha h.1⟩
  | after a b => exact h.elim
  | nil => exact ⟨rfl, rfl⟩

theorem inv_prefix {p n : Net V} {out : List V} (h : Inv p n out) : ∃ r, p.den = out ++ r := by
  induction p generalizing n out with
  | stage s hist pc c tp ih =>
    cases n with
    | stage s' h' pc' c' t =>
      obtain ⟨rfl, rfl, hp⟩ := h
      cases pc' with
      | waiting =>
        obtain ⟨r, hr⟩ := ih hp.1
        exact ⟨s'.run h' r, by rw [Net.den, hr, hp.2]⟩
      | sending q d =>
        cases d with
        | false =>
          obtain ⟨r, hr⟩ := ih hp.1
          exact ⟨q ++ s'.run h' r, by rw [Net.den, hr, hp.2, List.append_assoc]⟩
        | true => exact ⟨q, hp.symm⟩
      | closed => exact ⟨[], by rw [List.append_nil]; exact hp.symm⟩
    | _ => exact h.elim
  | seq a b iha ihb =>
    cases n with
    | seq n1 n2 =>
      obtain ⟨r, hr⟩ := iha h.2
      exact ⟨r ++ b.den, by rw [Net.den, hr, List.append_assoc]⟩
    | after n1 n2 =>
      obtain ⟨o2, rfl, h2⟩ := h
      obtain ⟨r, hr⟩ := ihb h2
      exact ⟨r, by rw [Net.den, hr, List.append_assoc]⟩
    | _ => exact h.elim
  | after a b => exact h.elim
  | nil => exact ⟨[], by rw [h.2]; rfl⟩

theorem inv_closed {p n : Net V} {out : List V} (h : Inv p n out) (hc : n.closed = true) : out = p.den := by
  induction p generalizing n out with
  | stage s hist pc c tp ih =>
    cases n with
    | stage s' h' pc' c' t =>
      cases pc' with
      | closed => exact h.2.2
      | _ => simp [Net.closed] at hc
    | _ => exact h.elim
  | seq a b iha ihb =>
    cases n with
    | seq n1 n2 => simp [Net.closed] at hc
    | after n1 n2 =>
      obtain ⟨o2, rfl, h2⟩ := h
      rw [Net.den, ihb h2 hc]
    | _ => exact h.elim
  | after a b => exact h.elim
  | nil => exact h.2

theorem inv_next {p n n' : Net V} {out : List V} (hf : p.Fresh) (h : Inv p n out) (hn : n.next = some n') :
    Inv p n' out := by
  induction p generalizing n n' out with
  | stage s hist pc c tp ih =>
    cases n with
    | stage s' h' pc' c' t => simp [Net.next] at hn
    | _ => exact h.elim
  | seq a b iha ihb =>
    cases n with
    | seq n1 n2 =>
      obtain ⟨rfl, h1⟩ := h
      simp only [Net.next] at hn
      cases hx : n1.next with
      | some a' =>
        rw [hx] at hn
        cases hn
        exact ⟨rfl, iha hf.1 h1 hx⟩
      | none =>
        rw [hx] at hn
        dsimp only at hn
        split at hn
        · rename_i hc
          cases hn
          exact ⟨[], by rw [List.append_nil]; exact inv_closed h1 hc, inv_fresh hf.2⟩
        · cases hn
    | after n1 n2 =>
      obtain ⟨o2, rfl, h2⟩ := h
      simp only [Net.next] at hn
      cases hx : n2.next with
      | some b' =>
        rw [hx] at hn
        cases hn
        exact ⟨o2, rfl, ihb hf.2 h2 hx⟩
      | none => rw [hx] at hn; cases hn
    | _ => exact h.elim
  | after a b => exact h.elim
  | nil =>
    obtain ⟨rfl, _⟩ := h
    cases hn

theorem inv_step {p n n' : Net V} {out : List V} {l : Option V} (hf : p.Fresh) (h : Inv p n out)
    (hs : NStep l n n') : Inv p n' (out ++ l.toList) := by
  induction p generalizing n n' out l with
  | stage s hist pc c tp ih =>
    obtain ⟨-, -, -, hft⟩ := hf
    cases n with
    | stage s' h' pc' c' t =>
      obtain ⟨rfl, rfl, hp⟩ := h
      cases hs with
      | inner hi =>
        have ih := fun (x : Inv tp t h') => ih (l := none) hft x hi
        simp only [Option.toList_none, List.append_nil] at ih ⊢
        refine ⟨rfl, rfl, ?_⟩
        cases pc' with
        | waiting => exact ⟨ih hp.1, hp.2⟩
        | sending q d =>
          cases d with
          | false => exact ⟨ih hp.1, hp.2⟩
          | true => exact hp
        | closed => exact hp
      | @recv _ _ _ _ t' v hi =>
        have h1 := ih hft hp.1 hi
        simp only [Option.toList_some] at h1
        simp only [Option.toList_none, List.append_nil]
        refine ⟨rfl, rfl, ?_⟩
        cases hl : s'.last h' v with
        | false =>
          refine ⟨h1, fun rest => ?_⟩
          rw [List.append_assoc, hp.2, List.singleton_append, Stage.run, hl, if_neg (by simp), List.append_assoc]
        | true =>
          obtain ⟨r, hr⟩ := inv_prefix h1
          show out ++ s'.emit h' v = s'.run [] tp.den
          rw [hr, List.append_assoc, hp.2, List.singleton_append, Stage.run, hl, if_pos rfl, List.append_nil]
      | next hi =>
        simp only [Option.toList_none, List.append_nil]
        exact ⟨rfl, rfl, inv_next hft hp.1 hi, hp.2⟩
      | eof hc =>
        simp only [Option.toList_none, List.append_nil]
        refine ⟨rfl, rfl, ?_⟩
        have h1 := inv_closed hp.1 hc
        show out ++ s'.flush h' = s'.run [] tp.den
        have := hp.2 []
        rw [List.append_nil] at this
        rw [← h1, this, Stage.run]
      | @send _ _ v vs d =>
        refine ⟨rfl, rfl, ?_⟩
        cases d with
        | false =>
          refine ⟨hp.1, fun rest => ?_⟩
          rw [hp.2]
          simp
        | true =>
          have : out ++ v :: vs = s'.run [] tp.den := hp
          show out ++ [v] ++ vs = _
          rw [← this]
          simp
      | again =>
        simp only [Option.toList_none, List.append_nil]
        refine ⟨rfl, rfl, hp.1, fun rest => ?_⟩
        rw [hp.2, List.append_nil]
      | done =>
        simp only [Option.toList_none, List.append_nil]
        refine ⟨rfl, rfl, ?_⟩
        have : out ++ [] = s'.run [] tp.den := hp
        rw [List.append_nil] at this
        exact this
    | _ => exact h.elim
  | seq a b iha ihb =>
    cases n with
    | seq n1 n2 =>
      obtain ⟨rfl, h1⟩ := h
      cases hs with
      | left hi => exact ⟨rfl, iha hf.1 h1 hi⟩
    | after n1 n2 =>
      obtain ⟨o2, rfl, h2⟩ := h
      cases hs with
      | right hi => exact ⟨_, List.append_assoc .., ihb hf.2 h2 hi⟩
      | old hi => exact ⟨o2, by simp, h2⟩
    | _ => exact h.elim
  | after a b => exact h.elim
  | nil =>
    obtain ⟨rfl, _⟩ := h
    cases hs

/-- C74: as long as a query is not cancelled from outside, what was read from it is a beginning of the rows of
its stages applied one after the other, however the goroutines were scheduled; when its channel is closed it is all
of them. -/
theorem C74_rows (q : Query V) {r : Run V} (h : Steps RStep q.start r) (hc : r.cancelled = false) :
    r.out <+: q.rows ∧ (r.net.closed = true → r.out = q.rows) := by
  have key : r.cancelled = false → Inv q.net r.net r.out := by
    refine Steps.inv (I := fun r => r.cancelled = false → Inv q.net r.net r.out) ?_ h ?_
    · intro b r t hi hst hcc
      cases hst with
      | work hn =>
        have := inv_step (net_fresh q) (hi hcc) hn
        simpa using this
      | read hn => exact inv_step (net_fresh q) (hi hcc) hn
      | cancel => cases hcc
    · intro _
      exact inv_fresh (net_fresh q)
  have hi := key hc
  rw [← den_net]
  obtain ⟨x, hx⟩ := inv_prefix hi
  exact ⟨⟨x, hx.symm⟩, inv_closed hi⟩

/-! ## Every schedule ends -/

theorem cancel_cancel (n : Net V) : n.cancel.cancel = n.cancel := by
  induction n <;> simp_all [Net.cancel]

theorem cancel_closed (n : Net V) : n.cancel.closed = n.closed := by
  induction n with
  | stage s h pc c t => cases pc <;> rfl
  | seq a b => rfl
  | after a b _ ih => simpa [Net.cancel, Net.closed] using ih
  | nil => rfl

theorem cancel_next (n : Net V) : n.cancel.next = n.next.map Net.cancel := by
  induction n with
  | stage s h pc c t => rfl
  | seq a b iha ihb =>
    simp only [Net.cancel, Net.next, iha, cancel_closed]
    cases a.next with
    | some x => rfl
    | none =>
      cases a.closed <;> rfl
  | after a b iha ihb =>
    simp only [Net.cancel, Net.next, ihb]
    cases b.next <;> rfl
  | nil => rfl

theorem cancel_step {l : Option V} {n n' : Net V} (h : NStep l n n') : NStep l n.cancel n'.cancel := by
  induction h with
  | inner _ ih => exact .inner ih
  | recv _ ih => exact .recv ih
  | next hn => exact .next (by rw [cancel_next, hn]; rfl)
  | eof hc => exact .eof (by rw [cancel_closed]; exact hc)
  | send => exact .send
  | again => exact .again
  | @done s h c t =>
    have := NStep.done (s := s) (h := h) (c := true) (t := t.cancel)
    simp only [Net.cancel]
    cases hc : s.cancels <;> simpa [hc, cancel_cancel] using this
  | quitWait hq => exact .quitWait hq
  | skip hq => exact .skip hq
  | quit hq => exact .quit hq
  | left _ ih => exact .left ih
  | right _ ih => exact .right ih
  | old _ ih => exact .old ih

/-- What can become of these goroutines in one step, whether or not they are read. -/
def Succ (n' n : Net V) : Prop := (∃ l, NStep l n n') ∨ n.next = some n'

theorem cancel_succ {n n' : Net V} (h : Succ n' n) : Succ n'.cancel n.cancel := by
  rcases h with ⟨l, h⟩ | h
  · exact .inl ⟨l, cancel_step h⟩
  · exact .inr (by rw [cancel_next, h]; rfl)

theorem acc_closed {s : Stage V} {h : List V} {c : Bool} {t : Net V} (ht : Acc Succ t) :
    Acc Succ (.stage s h .closed c t) := by
  induction ht with
  | intro t _ ih =>
    refine .intro _ fun n hn => ?_
    rcases hn with ⟨l, hn⟩ | hn
    · cases hn with
      | inner hi => exact ih _ (.inl ⟨_, hi⟩)
    · cases hn

theorem acc_stage {s : Stage V} {t : Net V} (ht : Acc Succ t) (hc : Acc Succ t.cancel) (h : List V) (pc : Pc V)
    (c : Bool) : Acc Succ (.stage s h pc c t) := by
  induction ht generalizing h pc c with
  | intro t ht ih =>
    have acct : Acc Succ t := .intro t ht
    have go : ∀ t', Succ t' t → ∀ h pc c, Acc Succ (.stage s h pc c t') := fun t' hs h pc c =>
      ih t' hs (hc.inv (cancel_succ hs)) h pc c
    have gi : ∀ {t' l}, NStep l t t' → ∀ h pc c, Acc Succ (.stage s h pc c t') := fun hs => go _ (.inl ⟨_, hs⟩)
    have done0 : ∀ h c, Acc Succ (.stage s h (.sending [] true) c t) := by
      intro h c
      refine .intro _ fun n hn => ?_
      rcases hn with ⟨l, hn⟩ | hn
      · cases hn with
        | inner hi => exact gi hi _ _ _
        | done =>
          cases s.cancels
          · exact acc_closed acct
          · exact acc_closed hc
      · cases hn
    have done1 : ∀ p h c, Acc Succ (.stage s h (.sending p true) c t) := by
      intro p
      induction p with
      | nil => exact done0
      | cons v vs ihv =>
        intro h c
        refine .intro _ fun n hn => ?_
        rcases hn with ⟨l, hn⟩ | hn
        · cases hn with
          | inner hi => exact gi hi _ _ _
          | send => exact ihv _ _
          | skip => exact done0 _ _
          | quit => exact done0 _ _
        · cases hn
    have wait : ∀ h c, Acc Succ (.stage s h .waiting c t) := by
      intro h c
      refine .intro _ fun n hn => ?_
      rcases hn with ⟨l, hn⟩ | hn
      · cases hn with
        | inner hi => exact gi hi _ _ _
        | recv hi => exact gi hi _ _ _
        | next hi => exact go _ (.inr hi) _ _ _
        | eof => exact done1 _ _ _
        | quitWait => exact done1 _ _ _
      · cases hn
    have send0 : ∀ h c, Acc Succ (.stage s h (.sending [] false) c t) := by
      intro h c
      refine .intro _ fun n hn => ?_
      rcases hn with ⟨l, hn⟩ | hn
      · cases hn with
        | inner hi => exact gi hi _ _ _
        | again => exact wait _ _
      · cases hn
    have send1 : ∀ p h c, Acc Succ (.stage s h (.sending p false) c t) := by
      intro p
      induction p with
      | nil => exact send0
      | cons v vs ihv =>
        intro h c
        refine .intro _ fun n hn => ?_
        rcases hn with ⟨l, hn⟩ | hn
        · cases hn with
          | inner hi => exact gi hi _ _ _
          | send => exact ihv _ _
          | skip => exact send0 _ _
          | quit => exact done0 _ _
        · cases hn
    cases pc with
    | waiting => exact wait _ _
    | sending p d =>
      cases d
      · exact send1 _ _ _
      · exact done1 _ _ _
    | closed => exact acc_closed acct

theorem acc_after {a b : Net V} (ha : Acc Succ a) (hb : Acc Succ b) : Acc Succ (.after a b) := by
  induction ha generalizing b with
  | intro a _ iha =>
    induction hb with
    | intro b hb ihb =>
      refine .intro _ fun n hn => ?_
      rcases hn with ⟨l, hn⟩ | hn
      · cases hn with
        | right hi => exact ihb _ (.inl ⟨_, hi⟩)
        | old hi => exact iha _ (.inl ⟨_, hi⟩) (.intro b hb)
      · simp only [Net.next] at hn
        cases hx : b.next with
        | some b' =>
          rw [hx] at hn
          cases hn
          exact ihb _ (.inr hx)
        | none => rw [hx] at hn; cases hn

theorem acc_seq {a b : Net V} (ha : Acc Succ a) (hb : Acc Succ b) : Acc Succ (.seq a b) := by
  induction ha with
  | intro a ha iha =>
    refine .intro _ fun n hn => ?_
    rcases hn with ⟨l, hn⟩ | hn
    · cases hn with
      | left hi => exact iha _ (.inl ⟨_, hi⟩)
    · simp only [Net.next] at hn
      cases hx : a.next with
      | some a' =>
        rw [hx] at hn
        cases hn
        exact iha _ (.inr hx)
      | none =>
        rw [hx] at hn
        dsimp only at hn
        split at hn
        · cases hn
          exact acc_after (.intro a ha) hb
        · cases hn

/-- No goroutines can go on forever, cancelled or not. -/
theorem acc_net (n : Net V) : Acc Succ n ∧ Acc Succ n.cancel := by
  induction n with
  | stage s h pc c t ih =>
    exact ⟨acc_stage ih.1 ih.2 _ _ _, acc_stage ih.2 (by rw [cancel_cancel]; exact ih.2) _ _ _⟩
  | seq a b iha ihb => exact ⟨acc_seq iha.1 ihb.1, acc_seq iha.2 ihb.2⟩
  | after a b iha ihb => exact ⟨acc_after iha.1 ihb.1, acc_after iha.2 ihb.2⟩
  | nil =>
    have : Acc Succ (.nil : Net V) := by
      refine .intro _ fun n hn => ?_
      rcases hn with ⟨l, hn⟩ | hn <;> cases hn
    exact ⟨this, this⟩

theorem acc_run (r : Run V) : Acc (fun t s => ∃ b, RStep b s t) r := by
  have h1 : ∀ n : Net V, ∀ o, Acc (fun t s => ∃ b, RStep b s t) ⟨n, o, true⟩ := by
    intro n
    induction (acc_net n).1 with
    | intro n _ ih =>
      intro o
      refine .intro _ fun r hr => ?_
      obtain ⟨b, hr⟩ := hr
      cases hr with
      | work hn => exact ih _ (.inl ⟨_, hn⟩) _
      | read hn => exact ih _ (.inl ⟨_, hn⟩) _
  obtain ⟨n, o, c⟩ := r
  cases c with
  | true => exact h1 n o
  | false =>
    induction (acc_net n).1 generalizing o with
    | intro n _ ih =>
      refine .intro _ fun r hr => ?_
      obtain ⟨b, hr⟩ := hr
      cases hr with
      | work hn => exact ih _ (.inl ⟨_, hn⟩) _
      | read hn => exact ih _ (.inl ⟨_, hn⟩) _
      | cancel => exact h1 _ _

theorem inevitable_acc {σ : Type} {live : By → Prop} {step step' : By → σ → σ → Prop} {P I : σ → Prop}
    (hsub : ∀ b s t, step' b s t → step b s t)
    (hI : ∀ b s t, I s → step' b s t → I t) (hp : ∀ s, I s → ¬ P s → ∃ b t, live b ∧ step' b s t) {s : σ}
    (ha : Acc (fun t s => ∃ b, step b s t) s) (h0 : I s) : Inevitable live step' P s := by
  induction ha with
  | intro s _ ih =>
    by_cases h : P s
    · exact .now h
    · exact .later (hp s h0 h) fun b t hst => ih t ⟨b, hsub _ _ _ hst⟩ (hI b s t h0 hst)

/-! ## A query that is read is completed -/

theorem progress {n : Net V} (hc : n.closed = false) : (∃ l n', NStep l n n') ∨ ∃ n', n.next = some n' := by
  induction n with
  | stage s h pc c t ih =>
    refine .inl ?_
    cases pc with
    | waiting =>
      cases ht : t.closed with
      | true => exact ⟨_, _, .eof ht⟩
      | false =>
        rcases ih ht with ⟨l, t', hs⟩ | ⟨t', hn⟩
        · cases l with
          | none => exact ⟨_, _, .inner hs⟩
          | some v => exact ⟨_, _, .recv hs⟩
        · exact ⟨_, _, .next hn⟩
    | sending p d =>
      cases p with
      | cons v vs => exact ⟨_, _, .send⟩
      | nil =>
        cases d
        · exact ⟨_, _, .again⟩
        · exact ⟨_, _, .done⟩
    | closed => cases hc
  | seq a b iha ihb =>
    cases ha : a.closed with
    | true =>
      refine .inr ?_
      simp only [Net.next, ha, if_true]
      cases a.next with
      | some x => exact ⟨_, rfl⟩
      | none => exact ⟨_, rfl⟩
    | false =>
      rcases iha ha with ⟨l, a', hs⟩ | ⟨a', hn⟩
      · exact .inl ⟨_, _, .left hs⟩
      · exact .inr ⟨_, by simp only [Net.next, hn]; rfl⟩
  | after a b iha ihb =>
    rcases ihb hc with ⟨l, a', hs⟩ | ⟨a', hn⟩
    · exact .inl ⟨_, _, .right hs⟩
    · exact .inr ⟨_, by simp only [Net.next, hn]; rfl⟩
  | nil => cases hc

/-- One goroutine delivers the rows. -/
def Net.Head : Net V → Prop
  | .stage _ _ _ _ _ => True
  | _ => False

theorem head_step {n n' : Net V} {l : Option V} (h : n.Head) (hs : NStep l n n') : n'.Head := by
  cases n with
  | stage => cases hs <;> trivial
  | _ => exact h.elim

theorem head_cancel {n : Net V} (h : n.Head) : n.cancel.Head := by
  cases n with
  | stage => trivial
  | _ => exact h.elim

theorem head_net (q : Query V) : q.net.Head := by cases q <;> trivial

theorem head_rstep {b : By} {r t : Run V} (h : r.net.Head) (hs : RStep b r t) : t.net.Head := by
  cases hs with
  | work hn => exact head_step h hn
  | read hn => exact head_step h hn
  | cancel => exact head_cancel h

theorem head_run {q : Query V} {r : Run V} (h : Steps RStep q.start r) : r.net.Head :=
  Steps.inv (I := fun r : Run V => r.net.Head) (fun _ _ _ hi hs => head_rstep hi hs) h (head_net q)

theorem head_progress {n : Net V} (h : n.Head) (hc : n.closed = false) : ∃ l n', NStep l n n' := by
  rcases progress hc with h' | ⟨n', hn⟩
  · exact h'
  · cases n with
    | stage => cases hn
    | _ => exact h.elim

/-- C74: whatever has happened so far, and whether or not the query is cancelled now or later: if the reader keeps
reading, the channel of the query is closed. -/
theorem C74_completes (q : Query V) {r : Run V} (h : Steps RStep q.start r) :
    Inevitable Read RStep (fun s => s.net.closed = true) r := by
  refine inevitable_acc (step := RStep) (I := fun s => s.net.Head) (fun _ _ _ h => h) (fun _ _ _ hi hs => head_rstep hi hs) ?_
    (acc_run r) (head_run h)
  rintro ⟨n, o, c⟩ hi hp
  obtain ⟨l, n', hs⟩ := head_progress hi (by simpa using hp)
  cases l with
  | none => exact ⟨_, _, .inl rfl, .work hs⟩
  | some v => exact ⟨_, _, .inr (.inr rfl), .read hs⟩

/-! ## Winding down -/

/-- The context of all these goroutines is cancelled. -/
def Net.Canc : Net V → Prop
  | .stage _ _ _ c t => c = true ∧ t.Canc
  | .seq a b => a.Canc ∧ b.Canc
  | .after a b => a.Canc ∧ b.Canc
  | .nil => True

theorem canc_cancel (n : Net V) : n.cancel.Canc := by
  induction n <;> simp_all [Net.cancel, Net.Canc]

theorem canc_next {n n' : Net V} (h : n.Canc) (hn : n.next = some n') : n'.Canc := by
  induction n generalizing n' with
  | stage => cases hn
  | seq a b iha ihb =>
    simp only [Net.next] at hn
    cases hx : a.next with
    | some a' =>
      rw [hx] at hn
      cases hn
      exact ⟨iha h.1 hx, h.2⟩
    | none =>
      rw [hx] at hn
      dsimp only at hn
      split at hn
      · cases hn
        exact h
      · cases hn
  | after a b iha ihb =>
    simp only [Net.next] at hn
    cases hx : b.next with
    | some b' =>
      rw [hx] at hn
      cases hn
      exact ⟨h.1, ihb h.2 hx⟩
    | none => rw [hx] at hn; cases hn
  | nil => cases hn

theorem canc_step {n n' : Net V} {l : Option V} (h : n.Canc) (hs : NStep l n n') : n'.Canc := by
  induction hs with
  | inner _ ih => exact ⟨h.1, ih h.2⟩
  | recv _ ih => exact ⟨h.1, ih h.2⟩
  | next hn => exact ⟨h.1, canc_next h.2 hn⟩
  | eof => exact h
  | send => exact h
  | again => exact h
  | @done s _ _ _ =>
    refine ⟨h.1, ?_⟩
    cases s.cancels
    · exact h.2
    · exact canc_cancel _
  | quitWait => exact h
  | skip => exact h
  | quit => exact h
  | left _ ih => exact ⟨ih h.1, h.2⟩
  | right _ ih => exact ⟨h.1, ih h.2⟩
  | old _ ih => exact ⟨ih h.1, h.2⟩

/-- All these goroutines look at the context while they send. -/
def Net.Watch : Net V → Prop
  | .stage s _ _ _ t => s.sendQuit ≠ .never ∧ t.Watch
  | .seq a b => a.Watch ∧ b.Watch
  | .after a b => a.Watch ∧ b.Watch
  | .nil => True

/-- The goroutines that do not look at the context have returned. -/
def Net.Safe : Net V → Prop
  | .stage s _ pc _ t => (s.sendQuit = .never → pc = .closed) ∧ t.Safe
  | .seq a b => a.Watch ∧ b.Watch
  | .after a b => a.Watch ∧ b.Watch
  | .nil => True

theorem watch_cancel {n : Net V} (h : n.Watch) : n.cancel.Watch := by
  induction n <;> simp_all [Net.cancel, Net.Watch]

theorem safe_cancel {n : Net V} (h : n.Safe) : n.cancel.Safe := by
  induction n with
  | stage s h' pc c t ih => exact ⟨h.1, ih h.2⟩
  | seq a b => exact ⟨watch_cancel h.1, watch_cancel h.2⟩
  | after a b => exact ⟨watch_cancel h.1, watch_cancel h.2⟩
  | nil => trivial

theorem watch_safe {n : Net V} (h : n.Watch) : n.Safe := by
  induction n with
  | stage s h' pc c t ih => exact ⟨fun hn => absurd hn h.1, ih h.2⟩
  | seq a b => exact h
  | after a b => exact h
  | nil => trivial

theorem watch_next {n n' : Net V} (h : n.Watch) (hn : n.next = some n') : n'.Watch := by
  induction n generalizing n' with
  | stage => cases hn
  | seq a b iha ihb =>
    simp only [Net.next] at hn
    cases hx : a.next with
    | some a' =>
      rw [hx] at hn
      cases hn
      exact ⟨iha h.1 hx, h.2⟩
    | none =>
      rw [hx] at hn
      dsimp only at hn
      split at hn
      · cases hn
        exact h
      · cases hn
  | after a b iha ihb =>
    simp only [Net.next] at hn
    cases hx : b.next with
    | some b' =>
      rw [hx] at hn
      cases hn
      exact ⟨h.1, ihb h.2 hx⟩
    | none => rw [hx] at hn; cases hn
  | nil => cases hn

theorem watch_step {n n' : Net V} {l : Option V} (h : n.Watch) (hs : NStep l n n') : n'.Watch := by
  induction hs with
  | inner _ ih => exact ⟨h.1, ih h.2⟩
  | recv _ ih => exact ⟨h.1, ih h.2⟩
  | next hn => exact ⟨h.1, watch_next h.2 hn⟩
  | eof => exact h
  | send => exact h
  | again => exact h
  | @done s _ _ _ =>
    refine ⟨h.1, ?_⟩
    cases s.cancels
    · exact h.2
    · exact watch_cancel h.2
  | quitWait => exact h
  | skip => exact h
  | quit => exact h
  | left _ ih => exact ⟨ih h.1, h.2⟩
  | right _ ih => exact ⟨h.1, ih h.2⟩
  | old _ ih => exact ⟨ih h.1, h.2⟩

/-- Only the channels of `chain` are followed by others. -/
theorem safe_next {n n' : Net V} (h : n.Safe) (hn : n.next = some n') : n'.Safe := by
  have hw : n.Watch := by
    cases n with
    | stage => cases hn
    | seq => exact h
    | after => exact h
    | nil => cases hn
  exact watch_safe (watch_next hw hn)

theorem safe_step {n n' : Net V} {l : Option V} (h : n.Safe) (hs : NStep l n n') : n'.Safe := by
  induction hs with
  | inner _ ih => exact ⟨h.1, ih h.2⟩
  | recv _ ih => exact ⟨fun hn => absurd (h.1 hn) (by simp), ih h.2⟩
  | next hn => exact ⟨fun hn => absurd (h.1 hn) (by simp), safe_next h.2 hn⟩
  | eof => exact ⟨fun hn => absurd (h.1 hn) (by simp), h.2⟩
  | send => exact ⟨fun hn => absurd (h.1 hn) (by simp), h.2⟩
  | again => exact ⟨fun hn => absurd (h.1 hn) (by simp), h.2⟩
  | @done s _ _ _ =>
    refine ⟨fun _ => rfl, ?_⟩
    cases s.cancels
    · exact h.2
    · exact safe_cancel h.2
  | quitWait => exact ⟨fun hn => absurd (h.1 hn) (by simp), h.2⟩
  | skip => exact ⟨fun hn => absurd (h.1 hn) (by simp), h.2⟩
  | quit => exact ⟨fun hn => absurd (h.1 hn) (by simp), h.2⟩
  | left hs _ => exact ⟨watch_step h.1 hs, h.2⟩
  | right hs _ => exact ⟨h.1, watch_step h.2 hs⟩
  | old hs _ => exact ⟨watch_step h.1 hs, h.2⟩

theorem ended_live {n : Net V} (h : n.ended = true) : n.closed = true ∨ ∃ n', n.next = some n' := by
  induction n with
  | stage s h' pc c t => cases pc <;> simp_all [Net.ended, Net.closed]
  | seq a b iha ihb =>
    refine .inr ?_
    have ha : a.ended = true := h
    simp only [Net.next]
    rcases iha ha with hc | ⟨a', hn⟩
    · cases a.next with
      | some x => exact ⟨_, rfl⟩
      | none => exact ⟨_, by simp only [hc, if_true]; rfl⟩
    · exact ⟨_, by simp only [hn]; rfl⟩
  | after a b iha ihb =>
    have hb : b.ended = true := by
      simp only [Net.ended, Bool.and_eq_true] at h
      exact h.2
    rcases ihb hb with hc | ⟨a', hn⟩
    · exact .inl hc
    · exact .inr ⟨_, by simp only [Net.next, hn]; rfl⟩
  | nil => exact .inl rfl

/-- Cancelled goroutines go on until none is left, without being read. -/
theorem winding {n : Net V} (hc : n.Canc) (hw : n.Safe) : (∃ n', NStep none n n') ∨ n.ended = true := by
  induction n with
  | stage s h pc c t ih =>
    obtain ⟨rfl, hc⟩ := hc
    cases pc with
    | waiting =>
      rcases ih hc hw.2 with ⟨t', hs⟩ | he
      · exact .inl ⟨_, .inner hs⟩
      · rcases ended_live he with hx | ⟨t', hn⟩
        · exact .inl ⟨_, .eof hx⟩
        · exact .inl ⟨_, .next hn⟩
    | sending p d =>
      cases p with
      | cons v vs =>
        cases hq : s.sendQuit with
        | never => exact absurd (hw.1 hq) (by simp)
        | skip => exact .inl ⟨_, .skip hq⟩
        | quit => exact .inl ⟨_, .quit hq⟩
      | nil =>
        cases d
        · exact .inl ⟨_, .again⟩
        · exact .inl ⟨_, .done⟩
    | closed =>
      rcases ih hc hw.2 with ⟨t', hs⟩ | he
      · exact .inl ⟨_, .inner hs⟩
      · exact .inr he
  | seq a b iha ihb =>
    rcases iha hc.1 (watch_safe hw.1) with ⟨a', hs⟩ | he
    · exact .inl ⟨_, .left hs⟩
    · exact .inr he
  | after a b iha ihb =>
    rcases iha hc.1 (watch_safe hw.1) with ⟨a', hs⟩ | he
    · exact .inl ⟨_, .old hs⟩
    · rcases ihb hc.2 (watch_safe hw.2) with ⟨b', hs⟩ | he'
      · exact .inl ⟨_, .right hs⟩
      · exact .inr (by simp [Net.ended, he, he'])
  | nil => exact .inr rfl

/-- The query has no ORDER BY. -/
def Query.Unsorted : Query V → Prop
  | .src _ => True
  | .select _ q => q.Unsorted
  | .group _ q => q.Unsorted
  | .order _ _ => False
  | .limit _ q => q.Unsorted
  | .stored q => q.Unsorted
  | .flatten _ q => q.Unsorted
  | .chain a b => a.Unsorted ∧ b.Unsorted
  | .stmt q => q.Unsorted

theorem watch_net {q : Query V} (h : q.Unsorted) : q.net.Watch := by
  induction q <;> simp_all [Query.net, start, Net.Watch, Query.Unsorted, srcS, selS, fwdS, grpS, limS, flatS, stmtS]

/-- C74: once a query without ORDER BY is cancelled, all its goroutines return even if nobody reads any more. -/
theorem C74_winds_down {q : Query V} (hq : q.Unsorted) {r : Run V} (h : Steps RStep q.start r)
    (hc : r.cancelled = true) : Inevitable Unread RStep (fun s => s.net.ended = true) r := by
  have key : r.net.Watch ∧ (r.cancelled = true → r.net.Canc) := by
    refine Steps.inv (I := fun r : Run V => r.net.Watch ∧ (r.cancelled = true → r.net.Canc)) ?_ h
      ⟨watch_net hq, fun h => by cases h⟩
    intro b r t hi hs
    cases hs with
    | work hn => exact ⟨watch_step hi.1 hn, fun hc => canc_step (hi.2 hc) hn⟩
    | read hn => exact ⟨watch_step hi.1 hn, fun hc => canc_step (hi.2 hc) hn⟩
    | cancel => exact ⟨watch_cancel hi.1, fun _ => canc_cancel _⟩
  refine inevitable_acc (step := RStep) (I := fun s => s.net.Watch ∧ s.net.Canc) (fun _ _ _ h => h) ?_ ?_ (acc_run r)
    ⟨key.1, key.2 hc⟩
  · intro b s t hi hs
    cases hs with
    | work hn => exact ⟨watch_step hi.1 hn, canc_step hi.2 hn⟩
    | read hn => exact ⟨watch_step hi.1 hn, canc_step hi.2 hn⟩
    | cancel => exact ⟨watch_cancel hi.1, canc_cancel _⟩
  · rintro ⟨n, o, c⟩ hi hp
    rcases winding hi.2 (watch_safe hi.1) with ⟨n', hs⟩ | he
    · exact ⟨_, _, .inl rfl, .work hs⟩
    · exact absurd he hp

/-! ## Without cancellation from outside -/

/-- Collects its input and sends only when it is closed. -/
def Stage.Collects (s : Stage V) : Prop := (∀ h v, s.emit h v = []) ∧ ∀ h v, s.last h v = false

/-- The goroutine that delivers the rows looks at the context. -/
def Net.HeadWatch : Net V → Prop
  | .stage s _ _ _ _ => s.sendQuit ≠ .never
  | _ => True

/-- Goroutines that do not look at the context feed a goroutine that collects; nothing is sent on, and so nothing
cancelled, before they have returned. -/
def Net.Ord : Net V → Prop
  | .stage s h pc c t => (Net.stage s h pc c t).Safe ∨ (c = false ∧ t.Ord ∧ (t.HeadWatch ∨ s.Collects) ∧
      (t.Safe ∨ (h = [] ∧ pc = .waiting) ∨ (s.Collects ∧ (pc = .waiting ∨ pc = .sending [] false))))
  | .seq a b => a.Watch ∧ b.Watch
  | .after a b => a.Watch ∧ b.Watch
  | .nil => True

theorem safe_ord {n : Net V} (h : n.Safe) : n.Ord := by
  cases n with
  | stage => exact .inl h
  | seq => exact h
  | after => exact h
  | nil => trivial

theorem headWatch_step {n n' : Net V} {l : Option V} (h : n.HeadWatch) (hs : NStep l n n') : n'.HeadWatch := by
  cases hs <;> first | exact h | trivial

theorem headWatch_next {n n' : Net V} (hn : n.next = some n') : n'.HeadWatch := by
  cases n with
  | seq a b =>
    simp only [Net.next] at hn
    cases hx : a.next with
    | some a' => rw [hx] at hn; cases hn; trivial
    | none =>
      rw [hx] at hn
      dsimp only at hn
      split at hn <;> cases hn
      trivial
  | after a b =>
    simp only [Net.next] at hn
    cases hx : b.next with
    | some a' => rw [hx] at hn; cases hn; trivial
    | none => rw [hx] at hn; cases hn
  | _ => cases hn

theorem headWatch_cancel {n : Net V} (h : n.HeadWatch) : n.cancel.HeadWatch := by
  cases n with
  | stage => exact h
  | _ => trivial

theorem closed_safe {n : Net V} (h : n.Ord) (hc : n.closed = true) : n.Safe := by
  cases n with
  | stage s h' pc c t =>
    cases pc with
    | closed =>
      rcases h with h | ⟨_, _, _, h | ⟨_, h⟩ | ⟨_, h | h⟩⟩
      · exact h
      · exact ⟨fun _ => rfl, h⟩
      · cases h
      · cases h
      · cases h
    | _ => cases hc
  | seq => exact h
  | after => exact h
  | nil => trivial

theorem send_safe {n n' : Net V} {v : V} (h : n.Ord) (hw : n.HeadWatch) (hs : NStep (some v) n n') : n'.Safe := by
  cases hs with
  | send =>
    rcases h with h | ⟨_, _, _, h | ⟨_, h⟩ | ⟨_, h | h⟩⟩
    · exact ⟨fun hn => absurd hn hw, h.2⟩
    · exact ⟨fun hn => absurd hn hw, h⟩
    · cases h
    · cases h
    · cases h
  | left hs => exact ⟨watch_step h.1 hs, h.2⟩
  | right hs => exact ⟨h.1, watch_step h.2 hs⟩

theorem next_safe {n n' : Net V} (h : n.Ord) (hn : n.next = some n') : n'.Safe := by
  cases n with
  | seq a b => exact safe_next (n := .seq a b) h hn
  | after a b => exact safe_next (n := .after a b) h hn
  | _ => cases hn

theorem ord_step {n n' : Net V} {l : Option V} (h : n.Ord) (hs : NStep l n n') : n'.Ord := by
  induction hs with
  | inner hs ih =>
    rcases h with h | ⟨hc, ho, hw, h⟩
    · exact .inl (safe_step h (.inner hs))
    · refine .inr ⟨hc, ih ho, hw.imp_left fun hw => headWatch_step hw hs, ?_⟩
      exact h.imp_left fun h => safe_step h hs
  | recv hs ih =>
    rcases h with h | ⟨hc, ho, hw, h⟩
    · exact .inl (safe_step h (.recv hs))
    · rcases hw with hw | hw
      · have := send_safe ho hw hs
        exact .inr ⟨hc, safe_ord this, .inl (headWatch_step hw hs), .inl this⟩
      · exact .inr ⟨hc, ih ho, .inr hw, .inr (.inr ⟨hw, .inr (by rw [hw.1, hw.2])⟩)⟩
  | next hn =>
    rcases h with h | ⟨hc, ho, hw, h⟩
    · exact .inl (safe_step h (.next hn))
    · have := next_safe ho hn
      exact .inr ⟨hc, safe_ord this, .inl (headWatch_next hn), .inl this⟩
  | eof hx =>
    rcases h with h | ⟨hc, ho, hw, h⟩
    · exact .inl (safe_step h (.eof hx))
    · exact .inr ⟨hc, ho, hw, .inl (closed_safe ho hx)⟩
  | send =>
    rcases h with h | ⟨hc, ho, hw, h | ⟨_, h⟩ | ⟨_, h | h⟩⟩
    · exact .inl (safe_step h .send)
    · exact .inr ⟨hc, ho, hw, .inl h⟩
    · cases h
    · cases h
    · cases h
  | again =>
    rcases h with h | ⟨hc, ho, hw, h | ⟨_, h⟩ | ⟨hx, h⟩⟩
    · exact .inl (safe_step h .again)
    · exact .inr ⟨hc, ho, hw, .inl h⟩
    · cases h
    · exact .inr ⟨hc, ho, hw, .inr (.inr ⟨hx, .inl rfl⟩)⟩
  | @done s _ _ _ =>
    rcases h with h | ⟨hc, ho, hw, h | ⟨_, h⟩ | ⟨_, h | h⟩⟩
    · exact .inl (safe_step h .done)
    · refine .inl ⟨fun _ => rfl, ?_⟩
      cases s.cancels
      · exact h
      · exact safe_cancel h
    · cases h
    · cases h
    · cases h
  | quitWait hq =>
    rcases h with h | ⟨hc, _⟩
    · exact .inl (safe_step h (.quitWait hq))
    · cases hc
  | skip hq =>
    rcases h with h | ⟨hc, _⟩
    · exact .inl (safe_step h (.skip hq))
    · cases hc
  | quit hq =>
    rcases h with h | ⟨hc, _⟩
    · exact .inl (safe_step h (.quit hq))
    · cases hc
  | left hs _ => exact ⟨watch_step h.1 hs, h.2⟩
  | right hs _ => exact ⟨h.1, watch_step h.2 hs⟩
  | old hs _ => exact ⟨watch_step h.1 hs, h.2⟩

/-- A goroutine that has returned has seen the end of its input, or its input is cancelled. -/
def Net.Sane : Net V → Prop
  | .stage s _ pc c t => t.Sane ∧ (c = true → t.Canc) ∧ (∀ h v, s.last h v = true → s.cancels = true) ∧
      (match pc with
        | .closed => t.closed = true ∨ t.Canc
        | .sending _ true => t.closed = true ∨ t.Canc ∨ s.cancels = true
        | _ => True)
  | .seq a b => a.Sane ∧ b.Sane
  | .after a b => a.Sane ∧ b.Sane ∧ a.closed = true
  | .nil => True

theorem closed_next {n n' : Net V} (hn : n.next = some n') : n.closed = false := by
  induction n generalizing n' with
  | after a b _ ih =>
    simp only [Net.next] at hn
    cases hx : b.next with
    | some a' => exact ih hx
    | none => rw [hx] at hn; cases hn
  | seq => rfl
  | _ => cases hn

theorem closed_step {n n' : Net V} {l : Option V} (h : n.closed = true) (hs : NStep l n n') : n'.closed = true := by
  induction hs with
  | @inner s h pc c t t' _ _ => cases pc <;> simp_all [Net.closed]
  | right _ ih => exact ih h
  | old _ _ => exact h
  | _ => cases h

theorem sane_cancel {n : Net V} (h : n.Sane) : n.cancel.Sane := by
  induction n with
  | stage s h' pc c t ih =>
    refine ⟨ih h.1, fun _ => canc_cancel _, h.2.2.1, ?_⟩
    cases pc with
    | waiting => trivial
    | sending p d =>
      cases d
      · trivial
      · exact .inr (.inl (canc_cancel _))
    | closed => exact .inr (canc_cancel _)
  | seq a b iha ihb => exact ⟨iha h.1, ihb h.2⟩
  | after a b iha ihb => exact ⟨iha h.1, ihb h.2.1, by rw [cancel_closed]; exact h.2.2⟩
  | nil => trivial

theorem sane_next {n n' : Net V} (h : n.Sane) (hn : n.next = some n') : n'.Sane := by
  induction n generalizing n' with
  | stage => cases hn
  | seq a b iha ihb =>
    simp only [Net.next] at hn
    cases hx : a.next with
    | some a' =>
      rw [hx] at hn
      cases hn
      exact ⟨iha h.1 hx, h.2⟩
    | none =>
      rw [hx] at hn
      dsimp only at hn
      split at hn
      · rename_i hc
        cases hn
        exact ⟨h.1, h.2, hc⟩
      · cases hn
  | after a b iha ihb =>
    simp only [Net.next] at hn
    cases hx : b.next with
    | some b' =>
      rw [hx] at hn
      cases hn
      exact ⟨h.1, ihb h.2.1 hx, h.2.2⟩
    | none => rw [hx] at hn; cases hn
  | nil => cases hn

theorem sane_step {n n' : Net V} {l : Option V} (h : n.Sane) (hs : NStep l n n') : n'.Sane := by
  induction hs with
  | @inner s h' pc c t t' hs ih =>
    refine ⟨ih h.1, fun hc => canc_step (h.2.1 hc) hs, h.2.2.1, ?_⟩
    have h4 := h.2.2.2
    cases pc with
    | waiting => trivial
    | sending p d =>
      cases d
      · trivial
      · exact h4.imp (fun x => closed_step x hs) (fun x => x.imp_left fun y => canc_step y hs)
    | closed => exact h4.imp (fun x => closed_step x hs) (fun x => canc_step x hs)
  | @recv s h' c t t' v hs ih =>
    refine ⟨ih h.1, fun hc => canc_step (h.2.1 hc) hs, h.2.2.1, ?_⟩
    cases hl : s.last h' v
    · trivial
    · exact .inr (.inr (h.2.2.1 _ _ hl))
  | next hn => exact ⟨sane_next h.1 hn, fun hc => canc_next (h.2.1 hc) hn, h.2.2.1, trivial⟩
  | eof hx => exact ⟨h.1, h.2.1, h.2.2.1, .inl hx⟩
  | @send s h' v vs d c t =>
    refine ⟨h.1, h.2.1, h.2.2.1, ?_⟩
    cases d
    · trivial
    · exact h.2.2.2
  | again => exact ⟨h.1, h.2.1, h.2.2.1, trivial⟩
  | @done s h' c t =>
    cases hx : s.cancels with
    | true => exact ⟨sane_cancel h.1, fun _ => canc_cancel _, h.2.2.1, .inr (canc_cancel _)⟩
    | false =>
      refine ⟨h.1, h.2.1, h.2.2.1, ?_⟩
      rcases h.2.2.2 with h4 | h4 | h4
      · exact .inl h4
      · exact .inr h4
      · rw [hx] at h4; cases h4
  | quitWait => exact ⟨h.1, h.2.1, h.2.2.1, .inr (.inl (h.2.1 rfl))⟩
  | @skip s h' v vs d t =>
    refine ⟨h.1, h.2.1, h.2.2.1, ?_⟩
    cases d
    · trivial
    · exact h.2.2.2
  | quit => exact ⟨h.1, h.2.1, h.2.2.1, .inr (.inl (h.2.1 rfl))⟩
  | left _ ih => exact ⟨ih h.1, h.2⟩
  | right _ ih => exact ⟨h.1, ih h.2.1, h.2.2⟩
  | old hs ih => exact ⟨ih h.1, h.2.1, closed_step h.2.2 hs⟩

/-- When a channel is closed the goroutines behind it return without being read. -/
theorem trailing {n : Net V} (hs : n.Sane) (hw : n.Safe) (hc : n.closed = true) :
    (∃ n', NStep none n n') ∨ n.ended = true := by
  induction n with
  | stage s h pc c t ih =>
    cases pc with
    | closed =>
      have : (∃ n', NStep none t n') ∨ t.ended = true := by
        rcases hs.2.2.2 with h4 | h4
        · exact ih hs.1 hw.2 h4
        · exact winding h4 hw.2
      rcases this with ⟨t', hs⟩ | he
      · exact .inl ⟨_, .inner hs⟩
      · exact .inr he
    | _ => cases hc
  | seq => cases hc
  | after a b iha ihb =>
    rcases iha hs.1 (watch_safe hw.1) hs.2.2 with ⟨a', hx⟩ | he
    · exact .inl ⟨_, .old hx⟩
    · rcases ihb hs.2.1 (watch_safe hw.2) hc with ⟨b', hx⟩ | he'
      · exact .inl ⟨_, .right hx⟩
      · exact .inr (by simp [Net.ended, he, he'])
  | nil => exact .inr rfl

/-- The queries given to `chain` have no ORDER BY. -/
def Query.Tame : Query V → Prop
  | .src _ => True
  | .select _ q => q.Tame
  | .group _ q => q.Tame
  | .order _ q => q.Tame
  | .limit _ q => q.Tame
  | .stored q => q.Tame
  | .flatten _ q => q.Tame
  | .chain a b => a.Unsorted ∧ b.Unsorted
  | .stmt q => q.Tame

theorem sane_net (q : Query V) : q.net.Sane := by
  induction q <;> simp_all [Query.net, start, Net.Sane, srcS, selS, fwdS, grpS, limS, flatS, stmtS, srtS, feedS]

theorem headWatch_net (q : Query V) : q.net.HeadWatch := by
  cases q <;> simp [Query.net, start, Net.HeadWatch, srcS, selS, fwdS, grpS, limS, flatS, stmtS, srtS]

theorem ord_start {s : Stage V} {t : Net V} (ht : t.Ord) (hw : t.HeadWatch ∨ s.Collects) : (start s t).Ord :=
  .inr ⟨rfl, ht, hw, .inr (.inl ⟨rfl, rfl⟩)⟩

theorem ord_net {q : Query V} (h : q.Tame) : q.net.Ord := by
  have hf : (fwdS : Stage V).sendQuit ≠ .never := by simp [fwdS]
  induction q with
  | src rows => exact ord_start trivial (.inl trivial)
  | select f q ih => exact ord_start (ord_start (ih h) (.inl (headWatch_net q))) (.inl hf)
  | group f q ih => exact ord_start (ord_start (ih h) (.inl (headWatch_net q))) (.inl hf)
  | order f q ih => exact ord_start (ord_start (ih h) (.inl (headWatch_net q))) (.inr ⟨fun _ _ => rfl, fun _ _ => rfl⟩)
  | limit n q ih => exact ord_start (ih h) (.inl (headWatch_net q))
  | stored q ih => exact ord_start (ih h) (.inl (headWatch_net q))
  | flatten f q ih => exact ord_start (ih h) (.inl (headWatch_net q))
  | chain a b iha ihb => exact ord_start ⟨watch_net h.1, watch_net h.2, trivial⟩ (.inl trivial)
  | stmt q ih => exact ord_start (ih h) (.inl (headWatch_net q))

/-- C74: a query whose `chain`s have no ORDER BY inside, not cancelled from outside and read: all its goroutines
return, those cut off by LIMIT too, and its reader has got exactly its rows. -/
theorem C74_all_end {q : Query V} (hq : q.Tame) {r : Run V} (h : Steps RStep q.start r) (hc : r.cancelled = false) :
    Inevitable Read (fun b s t => RStep b s t ∧ t.cancelled = false)
      (fun s => s.net.ended = true ∧ s.out = q.rows) r := by
  have key : r.cancelled = false → r.net.Sane ∧ r.net.Ord := by
    refine Steps.inv (I := fun r : Run V => r.cancelled = false → r.net.Sane ∧ r.net.Ord) ?_ h
      fun _ => ⟨sane_net q, ord_net hq⟩
    intro b r t hi hs hcc
    cases hs with
    | work hn => exact ⟨sane_step (hi hcc).1 hn, ord_step (hi hcc).2 hn⟩
    | read hn => exact ⟨sane_step (hi hcc).1 hn, ord_step (hi hcc).2 hn⟩
    | cancel => cases hcc
  refine inevitable_acc (step := RStep)
    (I := fun s => s.cancelled = false ∧ Steps RStep q.start s ∧ s.net.Sane ∧ s.net.Ord) (fun _ _ _ h => h.1) ?_ ?_
    (acc_run r) ⟨hc, h, key hc⟩
  · rintro b s t ⟨hcs, hst, hsa, hor⟩ ⟨hs, hct⟩
    refine ⟨hct, .tail hst hs, ?_⟩
    cases hs with
    | work hn => exact ⟨sane_step hsa hn, ord_step hor hn⟩
    | read hn => exact ⟨sane_step hsa hn, ord_step hor hn⟩
    | cancel => cases hct
  · rintro ⟨n, o, c⟩ ⟨rfl, hst, hsa, hor⟩ hp
    cases hcl : n.closed with
    | true =>
      rcases trailing hsa (closed_safe hor hcl) hcl with ⟨n', hs⟩ | he
      · exact ⟨_, _, .inl rfl, .work hs, rfl⟩
      · exact absurd ⟨he, (C74_rows q hst rfl).2 hcl⟩ hp
    | false =>
      obtain ⟨l, n', hs⟩ := head_progress (head_run hst) hcl
      cases l with
      | none => exact ⟨_, _, .inl rfl, .work hs, rfl⟩
      | some v => exact ⟨_, _, .inr (.inr rfl), .read hs, rfl⟩

/-! ## ORDER BY inside `chain`, LIMIT outside -/

/-- `SELECT … FROM chain(a={…}, b={… ORDER BY …}) LIMIT 1`. -/
def leaky (v : V) : Query V := .limit 1 (.chain (.src [v]) (.order id (.src [v])))

/-- What is left of it: the goroutine feeding the sorter. -/
def leakyEnd (c : Bool) (v : V) : Net V :=
  .stage (limS 1) [v] .closed c (.stage fwdS [v] .closed true
    (.after (.stage (srcS [v]) [] .closed true .nil)
      (.after (.stage (srtS id) [] .closed true (.stage feedS [v] (.sending [v] false) true
        (.stage (srcS [v]) [] .closed true .nil))) .nil)))

theorem closed_stuck {s : Stage V} {h : List V} {c : Bool} {t : Net V} (ht : ∀ l n', ¬ NStep l t n') (l : Option V)
    (n' : Net V) : ¬ NStep l (.stage s h .closed c t) n' := by
  intro hs
  cases hs with
  | inner hs => exact ht _ _ hs

theorem after_stuck {a b : Net V} (ha : ∀ l n', ¬ NStep l a n') (hb : ∀ l n', ¬ NStep l b n') (l : Option V)
    (n' : Net V) : ¬ NStep l (.after a b) n' := by
  intro hs
  cases hs with
  | right hs => exact hb _ _ hs
  | old hs => exact ha _ _ hs

theorem nil_stuck (l : Option V) (n' : Net V) : ¬ NStep l .nil n' := by
  intro hs
  cases hs

theorem leakyEnd_stuck {c : Bool} {v : V} {l : Option V} {n' : Net V} : ¬ NStep l (leakyEnd c v) n' := by
  have hs : ∀ l n', ¬ NStep l (.stage (srcS [v]) [] .closed true .nil) n' := closed_stuck nil_stuck
  refine closed_stuck (closed_stuck (after_stuck hs (after_stuck ?_ nil_stuck))) _ _
  intro l n' h
  cases h with
  | inner h =>
    cases h with
    | inner h => exact hs _ _ h
    | skip h => cases h
    | quit h => cases h

/-- C74 without the condition on `chain` fails: after LIMIT has been reached, `chain` may start its next query with
the cancelled context; the sorter of that query returns at once, and the goroutine feeding it blocks forever. -/
theorem C74_all_end_refuted (v : V) : Steps RStep (leaky v).start ⟨leakyEnd false v, (leaky v).rows, false⟩ ∧
    (leakyEnd false v).ended = false ∧ (∀ l n', ¬ NStep l (leakyEnd false v) n') ∧ ∀ l n', ¬ NStep l (leakyEnd false v).cancel n' := by
  refine ⟨?_, rfl, ?_, ?_⟩
  · have h : Steps RStep (leaky v).start (leaky v).start := .refl
    -- the first query of chain sends its row
    have h := h.tail (.work (.inner (.inner (.left (.eof rfl)))))
    have h := h.tail (.work (.inner (.recv (.left .send))))
    -- LIMIT receives it, it is read, LIMIT returns
    have h := h.tail (.work (.recv .send))
    have h := h.tail (.read .send)
    have h := h.tail (.work .done)
    -- chain goes on to the second query
    have h := h.tail (.work (.inner .again))
    have h := h.tail (.work (.inner (.inner (.left .done))))
    have h := h.tail (.work (.inner (.next rfl)))
    -- the second query gets a row
    have h := h.tail (.work (.inner (.inner (.right (.left (.inner (.inner (.eof rfl))))))))
    have h := h.tail (.work (.inner (.inner (.right (.left (.inner (.recv .send)))))))
    have h := h.tail (.work (.inner (.inner (.right (.left (.inner (.inner .done)))))))
    -- its sorter returns
    have h := h.tail (.work (.inner (.inner (.right (.left (.quitWait rfl))))))
    have h := h.tail (.work (.inner (.inner (.right (.left .done)))))
    -- chain returns
    have h := h.tail (.work (.inner (.next rfl)))
    have h := h.tail (.work (.inner (.eof rfl)))
    have h := h.tail (.work (.inner .done))
    exact h
  · exact fun l n' => leakyEnd_stuck
  · exact fun l n' => leakyEnd_stuck (c := true)

/-! ## Examples -/

/-- `SELECT … FROM chain(a={…}, b={…}) LIMIT 2`. -/
def exLimit : Query Nat := .limit 2 (.select (fun _ v => some (v + 1)) (.chain (.src [1, 2]) (.src [3])))

/-- `SELECT … FROM … WHERE … ORDER BY … LIMIT 1`. -/
def exOrder : Query Nat := .stmt (.limit 1 (.order List.reverse (.select (fun _ v => if v < 3 then some v else none)
  (.src [1, 2, 3]))))

example : exLimit.rows = [2, 3] := by decide
example : exOrder.rows = [2] := by decide
example : exLimit.Tame ∧ exLimit.Unsorted := by simp [exLimit, Query.Tame, Query.Unsorted]
example : exOrder.Tame := by simp [exOrder, Query.Tame]

example : Inevitable Read (fun b s t => RStep b s t ∧ t.cancelled = false)
    (fun s => s.net.ended = true ∧ s.out = [2]) exOrder.start :=
  C74_all_end (q := exOrder) (by simp [exOrder, Query.Tame]) .refl rfl

example : Inevitable Unread RStep (fun s => s.net.ended = true) ⟨exLimit.net.cancel, [], true⟩ :=
  C74_winds_down (q := exLimit) (by simp [exLimit, Query.Unsorted]) (.tail .refl .cancel) rfl

/-- A count column: what is sent for a row depends on the rows before it. -/
example : (Query.select (fun h _ => some (h.length + 1)) (.src [5, 5, 5])).rows = [1, 2, 3] := by decide

end Vfilter.Pipe
