import Verif.Props.EvalFns
/-!
# More of the package's functions in queries: dict, timestamp, format, `**` (C53, C61, C64, C72, C73)
-/
set_option linter.all false

namespace Vfilter.Vql
open Fmt

section
variable {F S : Type} [FloatOps F] {H : Host F S}

/-! ## dict -/

/-- Values `dict()` leaves as they are: neither queries nor expressions that are not evaluated yet, also inside
arrays nested less than `n` deep. -/
def Settled : Nat → V F → Prop
  | 0, _ => False
  | n + 1, .arr l => ∀ x ∈ l, Settled n x
  | _ + 1, .obj (.lazy _) => False
  | _ + 1, v => isQuery v = false

omit [FloatOps F] in
theorem mapP_pure_id {α : Type} {f : α → Prog F S α} {l : List α} (h : ∀ x ∈ l, f x = pure x) :
    mapP f l = pure l := by
  induction l with
  | nil => rfl
  | cons x r ih =>
    show (f x >>= fun b => mapP f r >>= fun bs => pure (b :: bs)) = _
    rw [h x (List.mem_cons_self ..), ih (fun y hy => h y (List.mem_cons_of_mem _ hy))]
    rfl

omit [FloatOps F] in
theorem normalize_settled {s : Nat} {n : Nat} {v : V F} (h : Settled n v) :
    (normalizeP s n v : Prog F S (V F)) = pure v := by
  induction n generalizing v with
  | zero => exact h.elim
  | succ n ih =>
    cases v with
    | arr l =>
      show (mapP (normalizeP s n) l >>= fun l => pure (Val.arr l)) = pure (Val.arr l)
      rw [mapP_pure_id (fun x hx => ih (h x hx))]
      rfl
    | obj o =>
      cases o with
      | lazy c => exact h.elim
      | _ =>
        have h' : isQuery _ = false := h
        unfold normalizeP
        simp only [h', Bool.false_eq_true, if_false]
    | _ =>
      have h' : isQuery _ = false := h
      unfold normalizeP
      simp only [h', Bool.false_eq_true, if_false]

/-- The arguments of a call evaluated in order, once each, from cell `c` on: their values. -/
inductive EachArg (H : Host F S) (s : Nat) : Nat → List (String × AndE) → St F S → List (V F) → St F S → Prop
  | nil {c : Nat} {st : St F S} : EachArg H s c [] st [] st
  | cons {c : Nat} {k : String} {e : AndE} {rest : List (String × AndE)} {st s1 s2 : St F S} {v : V F} {vs : List (V F)} :
      st.lazies[c]? = some ⟨e, s, none⟩ → Forces H e s st v s1 →
      EachArg H s (c + 1) rest (s1.setLazy c v) vs s2 → EachArg H s c ((k, e) :: rest) st (v :: vs) s2

/-- The names of the arguments of a call. -/
def argNames (args : List (String × AndE)) : List Str := args.map fun a => ident (bs a.1)

theorem od_set_fresh {V : Type} {d : OD V} {k : Str} {v : V} (h : k ∉ OD.keys d) : OD.set d k v = d ++ [(k, v)] := by
  unfold OD.set OD.erase
  rw [List.filter_eq_self.2]
  intro p hp
  simp only [bne_iff_ne, ne_eq, decide_eq_true_eq]
  intro e
  exact h (List.mem_map.2 ⟨p, hp, e⟩)

/-- The cells of arguments with different names. -/
def cells : Nat → List (String × AndE) → OD (V F)
  | _, [] => []
  | n, (k, _) :: r => (ident (bs k), .obj (.lazy n)) :: cells (n + 1) r

omit [FloatOps F] in
theorem keys_cells {n : Nat} {args : List (String × AndE)} : OD.keys (cells n args : OD (V F)) = argNames args := by
  induction args generalizing n with
  | nil => rfl
  | cons a r ih =>
    show ident (bs a.1) :: OD.keys (cells (n + 1) r : OD (V F)) = _
    rw [ih]
    rfl

omit [FloatOps F] in
theorem lazyDict_cells {acc : OD (V F)} {n : Nat} {args : List (String × AndE)}
    (h : (OD.keys acc ++ argNames args).Nodup) : lazyDict acc n args = acc ++ cells n args := by
  induction args generalizing acc n with
  | nil => simp [lazyDict, cells]
  | cons a r ih =>
    obtain ⟨k, e⟩ := a
    have hk : ident (bs k) ∉ OD.keys acc := by
      intro hm
      have := (List.nodup_append.1 h).2.2
      exact this _ hm _ (List.mem_cons_self ..) rfl
    rw [lazyDict, od_set_fresh hk, ih]
    · simp [cells]
    · simpa [OD.keys, argNames] using h

omit [FloatOps F] in
theorem get_cells_append {pre : OD (V F)} {k : Str} {v : V F} {post : OD (V F)} (h : k ∉ OD.keys pre) :
    OD.get (pre ++ (k, v) :: post) k = some v := by
  induction pre with
  | nil => simp [OD.get]
  | cons p r ih =>
    obtain ⟨a, b⟩ := p
    simp only [OD.keys, List.map_cons, List.mem_cons, not_or] at h
    have := ih h.2
    have h' : ¬ a = k := fun e => h.1 e.symm
    simp only [List.cons_append, OD.get, h', if_false]
    exact this

omit [FloatOps F] in
theorem foldP_congr {α β : Type} {f g : β → α → Prog F S β} (h : ∀ b a, f b a = g b a) (l : List α) (b : β) :
    foldP f b l = foldP g b l := by
  have : f = g := funext fun b => funext fun a => h b a
  rw [this]

omit [FloatOps F] in
theorem bindP_congr {α β : Type} {p : Prog F S α} {f g : α → Prog F S β} (h : ∀ a, f a = g a) :
    (p >>= f) = (p >>= g) := by
  rw [funext h]

/-- What `dict()` does with a name. -/
def fillP (d : V F) (s : Nat) (acc : OD (V F)) (m : Str) : Prog F S (OD (V F)) := do
  match ← call (.assoc d (.val (.str m)) s) with
  | (v, true) => do
    let v ← normalizeP s 11 (v.getD .null)
    pure (OD.set acc m v)
  | (_, false) => pure acc

/-- Filling a dict from the cells. -/
theorem chain_cells {s : Nat} {pre : OD (V F)} {args : List (String × AndE)} {c : Nat} {vs : List (V F)}
    {st s2 : St F S} {acc : OD (V F)}
    (hp : ∀ k ∈ argNames args, PlainKey k) (hd : (OD.keys pre ++ argNames args).Nodup)
    (ha : (OD.keys acc ++ argNames args).Nodup)
    (he : EachArg H s c args st vs s2) (hs : ∀ v ∈ vs, Settled 10 v) :
    Runs H (foldP (fillP (.dict (pre ++ cells c args)) s) acc (argNames args)) st (acc ++ (argNames args).zip vs) s2 := by
  induction he generalizing pre acc with
  | nil => 
    simp only [argNames, List.map_nil, List.zip_nil_left, List.append_nil]
    exact runs_pure.2 ⟨rfl, rfl⟩
  | @cons c k e rest st s1 s2 v vs hl hf hr ih =>
    have hk : ident (bs k) ∉ OD.keys pre := by
      intro hm
      exact (List.nodup_append.1 hd).2.2 _ hm _ (List.mem_cons_self ..) rfl
    have hka : ident (bs k) ∉ OD.keys acc := by
      intro hm
      exact (List.nodup_append.1 ha).2.2 _ hm _ (List.mem_cons_self ..) rfl
    have hg : OD.get (pre ++ cells c ((k, e) :: rest) : OD (V F)) (ident (bs k)) = some (.obj (.lazy c)) :=
      get_cells_append hk
    show Runs H (foldP _ acc (ident (bs k) :: argNames rest)) st _ s2
    rw [foldP]
    refine runs_bind.2 ⟨acc ++ [(ident (bs k), v)], s1.setLazy c v, ?_, ?_⟩
    · refine runs_bind.2 ⟨_, _, (runs_assoc_dict (hp _ (List.mem_cons_self ..))).2 ⟨rfl, rfl⟩, ?_⟩
      unfold dictAns
      rw [hg]
      show Runs H ((call (.lazyReduce c) >>= fun v => normalizeP s 10 v) >>= _) _ _ _
      refine runs_bind.2 ⟨v, s1.setLazy c v, runs_bind.2 ⟨v, s1.setLazy c v, (runs_lazyReduce hl rfl).2 ⟨s1, hf, rfl⟩, ?_⟩, ?_⟩
      · rw [normalize_settled (hs v (List.mem_cons_self ..))]
        exact runs_pure.2 ⟨rfl, rfl⟩
      · rw [od_set_fresh hka]
        exact runs_pure.2 ⟨rfl, rfl⟩
    · have e1 : (pre ++ cells c ((k, e) :: rest) : OD (V F)) =
          (pre ++ [(ident (bs k), .obj (.lazy c))]) ++ cells (c + 1) rest := by
        simp [cells]
      rw [e1]
      have := ih (pre := pre ++ [(ident (bs k), .obj (.lazy c))]) (acc := acc ++ [(ident (bs k), v)])
        (fun k hk => hp k (List.mem_cons_of_mem _ hk)) (by simpa [OD.keys, argNames] using hd)
        (by simpa [OD.keys, argNames] using ha) (fun v hv => hs v (List.mem_cons_of_mem _ hv))
      have e2 : acc ++ (argNames ((k, e) :: rest)).zip (v :: vs) =
          acc ++ [(ident (bs k), v)] ++ (argNames rest).zip vs := by
        simp [argNames]
      rw [e2]
      exact this

section
variable (W : World F Obj) (matchF : V F → V F → Bool) (fmtV : V F → Str) (colName : Col → Str)
  (num : Str → Option (V F)) (text : Select → Str) (fuel : Nat) (X : Extra F S)

local notation "LH" => libHost W matchF fmtV colName num text fuel X

/-- C61 in a query: `dict(k1=e1, …, kn=en)` evaluates its arguments in this order, once each, and is the dict of
exactly these names and values. -/
theorem C61_dict_evaluates (hx : OD.get X.fns (bs "dict") = none) {node : Nat} {args : List (String × AndE)} {s : Nat}
    {st s2 st' : St F S} {a : V F} {vs : List (V F)} (hn : st.Names node "dict" s args)
    (hp : ∀ k ∈ argNames args, PlainKey k) (hd : (argNames args).Nodup)
    (he : EachArg LH s st.lazies.length args (st.fnStart node "dict" s args) vs s2) (hs : ∀ v ∈ vs, Settled 10 v) :
    Runs LH (call (.value (.fcall node "dict" args) s)) st a st' ↔
      a = .dict ((argNames args).zip vs) ∧ st' = s2 := by
  rw [runs_lib_fn W matchF fmtV colName num text fuel X (fun _ s a => dictFnP s a) hx (by decide +kernel)
    (by decide +kernel) (by decide +kernel) (fun _ _ _ => rfl) hn]
  rw [lazyDict_cells (by simpa [OD.keys] using hd), List.nil_append]
  refine runs_only (runs_bind.2 ⟨(argNames args).zip vs, s2, ?_, runs_pure.2 ⟨rfl, rfl⟩⟩)
  refine runs_bind.2 ⟨_, _, runs_members_dict.2 ⟨rfl, rfl⟩, ?_⟩
  rw [keys_cells]
  refine (foldP_congr (g := fillP (.dict (cells st.lazies.length args)) s) ?_ _ _).symm ▸ ?_
  · intro acc m
    unfold fillP
    refine bindP_congr ?_
    rintro ⟨x, b⟩
    cases b <;> rfl
  exact chain_cells (pre := []) (acc := []) hp (by simpa [OD.keys] using hd) (by simpa [OD.keys] using hd) he hs

/-! ## timestamp -/

/-- C72: `timestamp(epoch=n)` for a positive number of seconds is that many seconds after the start of 1970,
whatever `winfiletime` is. -/
theorem C72_epoch {X : Type} (n w : I64) (h : 0 < n.toInt) :
    (timestampF n w : Val F X) = .time (n.toInt * 1000000000) := by
  unfold timestampF
  rw [if_pos h]

/-- C72: `timestamp(winfiletime=w)` for a positive number of 100 ns since the start of 1601 is the last whole
second that is not later than it (`ns - ` the time is the part of a second). -/
theorem C72_winfiletime {X : Type} (n w : I64) (hn : n.toInt ≤ 0) (h : 0 < w.toInt) :
    ∃ q r : Int, (timestampF n w : Val F X) = .time (q * 1000000000) ∧
      w.toInt = (q + 11644473600) * 10000000 + r ∧ 0 ≤ r ∧ r < 10000000 := by
  refine ⟨w.toInt / 10000000 - 11644473600, w.toInt % 10000000, ?_, ?_, ?_, ?_⟩
  · unfold timestampF goDiv
    rw [if_neg (by omega), if_pos h, Int.tdiv_eq_ediv_of_nonneg (by omega)]
  · omega
  · omega
  · omega

/-- C72: the first second of 1970 and everything before it have no `epoch`: the value is NULL. -/
theorem C72_before_epoch_refuted {X : Type} (n : I64) (h : n.toInt ≤ 0) :
    (timestampF n 0#64 : Val F X) = .null := by
  unfold timestampF
  rw [if_neg (by omega), if_neg (by decide)]

/-- C72 in a query: `timestamp(epoch=e)` evaluates the argument once; what is not a number is reported and gives
NULL. -/
theorem C72_epoch_evaluates (hx : OD.get X.fns (bs "timestamp") = none) {node : Nat} {e : AndE} {s : Nat}
    {st s1 st' : St F S} {a v : V F} (hn : st.Names node "timestamp" s [("epoch", e)])
    (h1 : Forces LH e s (st.fnStart node "timestamp" s [("epoch", e)]) v s1) :
    Runs LH (call (.value (.fcall node "timestamp" [("epoch", e)]) s)) st a st' ↔
      match v.toInt64 with
      | some i => a = (if 0 < i.toInt then .time (i.toInt * 1000000000) else .null) ∧
          st' = s1.setLazy st.lazies.length v
      | none => a = .null ∧ st' = (s1.setLazy st.lazies.length v).logged (bs "timestamp") := by
  rw [runs_lib_fn W matchF fmtV colName num text fuel X (fun _ s a => timestampFnP W fmtV s a) hx (by decide +kernel)
    (by decide +kernel) (by decide +kernel) (fun _ _ _ => rfl) hn]
  have hg := fnStart_get (st := st) (node := node) (name := "timestamp") (s := s) (args := [("epoch", e)]) (i := 0) rfl
  have hf : Runs LH (fieldP W fmtV s (.obj (.lazy st.lazies.length)) .int)
      (st.fnStart node "timestamp" s [("epoch", e)]) (v.toInt64.map .int) (s1.setLazy st.lazies.length v) :=
    field_int hg rfl h1
  cases hv : v.toInt64 with
  | none =>
    rw [hv] at hf
    exact runs_only (runs_bind.2 ⟨none, _, args_bad rfl (parse_bad rfl hf), runs_pure.2 ⟨rfl, rfl⟩⟩)
  | some i =>
    rw [hv] at hf
    refine runs_only (runs_bind.2 ⟨some [(bs "epoch", .int i)], s1.setLazy st.lazies.length v,
      args_ok rfl (parse_some rfl hf (parse_none rfl rfl parse_end)) rfl, ?_⟩)
    refine runs_pure.2 ⟨?_, rfl⟩
    show _ = timestampF i 0#64
    by_cases hi : 0 < i.toInt
    · rw [if_pos hi, C72_epoch i _ hi]
    · rw [if_neg hi, C72_before_epoch_refuted i (by omega)]

/-- C72 in a query: `timestamp(winfiletime=e)`. -/
theorem C72_winfiletime_evaluates (hx : OD.get X.fns (bs "timestamp") = none) {node : Nat} {e : AndE} {s : Nat}
    {st s1 st' : St F S} {a v : V F} {i : I64} (hn : st.Names node "timestamp" s [("winfiletime", e)])
    (h1 : Forces LH e s (st.fnStart node "timestamp" s [("winfiletime", e)]) v s1) (hv : v.toInt64 = some i)
    (hi : 0 < i.toInt) :
    Runs LH (call (.value (.fcall node "timestamp" [("winfiletime", e)]) s)) st a st' ↔
      a = .time ((i.toInt / 10000000 - 11644473600) * 1000000000) ∧ st' = s1.setLazy st.lazies.length v := by
  rw [runs_lib_fn W matchF fmtV colName num text fuel X (fun _ s a => timestampFnP W fmtV s a) hx (by decide +kernel)
    (by decide +kernel) (by decide +kernel) (fun _ _ _ => rfl) hn]
  have hg := fnStart_get (st := st) (node := node) (name := "timestamp") (s := s) (args := [("winfiletime", e)]) (i := 0) rfl
  have hf : Runs LH (fieldP W fmtV s (.obj (.lazy st.lazies.length)) .int)
      (st.fnStart node "timestamp" s [("winfiletime", e)]) (v.toInt64.map .int) (s1.setLazy st.lazies.length v) :=
    field_int hg rfl h1
  rw [hv] at hf
  refine runs_only (runs_bind.2 ⟨some [(bs "winfiletime", .int i)], s1.setLazy st.lazies.length v,
    args_ok rfl (parse_none rfl rfl (parse_some rfl hf parse_end)) rfl, ?_⟩)
  refine runs_pure.2 ⟨?_, rfl⟩
  show _ = timestampF 0#64 i
  unfold timestampF goDiv
  rw [if_neg (by decide), if_pos hi, Int.tdiv_eq_ediv_of_nonneg (by omega)]

/-! ## format -/

/-- C73 in a query: `format(format=e1, args=e2)` evaluates its arguments in this order, once each; the elements of
an array are the operands of `Sprintf`, anything else is the only one. -/
theorem C73_evaluates (hx : OD.get X.fns (bs "format") = none) {node : Nat} {e1 e2 : AndE} {s : Nat}
    {st s1 s2 st' : St F S} {a v : V F} {t : Str}
    (hn : st.Names node "format" s [("format", e1), ("args", e2)])
    (h1 : Forces LH e1 s (st.fnStart node "format" s [("format", e1), ("args", e2)]) (.str t) s1)
    (hl : (s1.setLazy st.lazies.length (.str t)).lazies[st.lazies.length + 1]? = some ⟨e2, s, none⟩)
    (h2 : Forces LH e2 s (s1.setLazy st.lazies.length (.str t)) v s2) :
    Runs LH (call (.value (.fcall node "format" [("format", e1), ("args", e2)]) s)) st a st' ↔
      a = .str (X.sprintf t (match v with
        | .arr l => l
        | v => [v])) ∧ st' = s2 := by
  rw [runs_lib_fn W matchF fmtV colName num text fuel X (fun _ s a => formatFnP W fmtV X s a) hx (by decide +kernel)
    (by decide +kernel) (by decide +kernel) (fun _ _ _ => rfl) hn]
  have hg := fnStart_get (st := st) (node := node) (name := "format") (s := s)
    (args := [("format", e1), ("args", e2)]) (i := 0) rfl
  refine runs_only (runs_bind.2 ⟨some [(bs "format", .str t), (bs "args", v)], s2, args_ok rfl ?_ rfl, ?_⟩)
  · exact parse_some rfl (field_str hg rfl h1) (parse_some rfl (field_any hl h2) parse_end)
  · refine runs_pure.2 ⟨?_, rfl⟩
    show _ = Val.str (X.sprintf t (formatArgs (some v)))
    cases v <;> rfl

/-- C73: without `args` there are no operands. -/
theorem C73_no_args (hx : OD.get X.fns (bs "format") = none) {node : Nat} {e1 : AndE} {s : Nat}
    {st s1 st' : St F S} {a : V F} {t : Str} (hn : st.Names node "format" s [("format", e1)])
    (h1 : Forces LH e1 s (st.fnStart node "format" s [("format", e1)]) (.str t) s1) :
    Runs LH (call (.value (.fcall node "format" [("format", e1)]) s)) st a st' ↔
      a = .str (X.sprintf t []) ∧ st' = s1.setLazy st.lazies.length (.str t) := by
  rw [runs_lib_fn W matchF fmtV colName num text fuel X (fun _ s a => formatFnP W fmtV X s a) hx (by decide +kernel)
    (by decide +kernel) (by decide +kernel) (fun _ _ _ => rfl) hn]
  have hg := fnStart_get (st := st) (node := node) (name := "format") (s := s) (args := [("format", e1)]) (i := 0) rfl
  exact runs_only (runs_bind.2 ⟨some [(bs "format", .str t)], _,
    args_ok rfl (parse_some rfl (field_str hg rfl h1) (parse_none rfl rfl parse_end)) rfl, runs_pure.2 ⟨rfl, rfl⟩⟩)

/-- C73: without `format` nothing is evaluated, one message is left and the value is FALSE (not NULL, as for all
other functions). -/
theorem C73_missing (hx : OD.get X.fns (bs "format") = none) {node : Nat} {e : AndE} {s : Nat}
    {st st' : St F S} {a : V F} (hn : st.Names node "format" s [("args", e)]) :
    Runs LH (call (.value (.fcall node "format" [("args", e)]) s)) st a st' ↔
      a = .bool false ∧ st' = (st.fnStart node "format" s [("args", e)]).logged (bs "format") := by
  rw [runs_lib_fn W matchF fmtV colName num text fuel X (fun _ s a => formatFnP W fmtV X s a) hx (by decide +kernel)
    (by decide +kernel) (by decide +kernel) (fun _ _ _ => rfl) hn]
  exact runs_only (runs_bind.2 ⟨none, _, args_bad rfl (parse_missing rfl rfl), runs_pure.2 ⟨rfl, rfl⟩⟩)

/-! ## split by a regular expression -/

/-- C64 in a query: `split(string=e1, sep=e2)` gives the parts the regular expression leaves, in order. -/
theorem C64_regex_evaluates (hx : OD.get X.fns (bs "split") = none) {node : Nat} {e1 e2 : AndE} {s : Nat}
    {st s1 s2 st' : St F S} {a : V F} {t sep : Str} (hs : sep ≠ [])
    (hn : st.Names node "split" s [("string", e1), ("sep", e2)])
    (h1 : Forces LH e1 s (st.fnStart node "split" s [("string", e1), ("sep", e2)]) (.str t) s1)
    (hl : (s1.setLazy st.lazies.length (.str t)).lazies[st.lazies.length + 1]? = some ⟨e2, s, none⟩)
    (h2 : Forces LH e2 s (s1.setLazy st.lazies.length (.str t)) (.str sep) s2) :
    Runs LH (call (.value (.fcall node "split" [("string", e1), ("sep", e2)]) s)) st a st' ↔
      match X.reSplit sep t with
      | some parts => a = .arr (parts.map .str) ∧ st' = s2.setLazy (st.lazies.length + 1) (.str sep)
      | none => a = .null ∧ st' = (s2.setLazy (st.lazies.length + 1) (.str sep)).logged (bs "split") := by
  rw [runs_lib_fn W matchF fmtV colName num text fuel X (fun _ s a => splitFnP W fmtV X s a) hx (by decide +kernel)
    (by decide +kernel) (by decide +kernel) (fun _ _ _ => rfl) hn]
  have hg := fnStart_get (st := st) (node := node) (name := "split") (s := s)
    (args := [("string", e1), ("sep", e2)]) (i := 0) rfl
  have hp : ∀ a st', Runs LH (match X.reSplit sep t with
      | some l => pure (Val.arr (l.map .str))
      | none => do
        prim (.log (bs "split"))
        pure .null) (s2.setLazy (st.lazies.length + 1) (.str sep)) a st' →
      Runs LH (splitFnP W fmtV X s (lazyDict [] st.lazies.length [("string", e1), ("sep", e2)]))
      (st.fnStart node "split" s [("string", e1), ("sep", e2)]) a st' := by
    intro a st' h
    refine runs_bind.2 ⟨some [(bs "string", .str t), (bs "sep", .str sep)],
      s2.setLazy (st.lazies.length + 1) (.str sep), args_ok rfl ?_ rfl, ?_⟩
    · exact parse_some rfl (field_str hg rfl h1) (parse_some rfl (field_str hl rfl h2) (parse_none rfl rfl parse_end))
    · show Runs LH (if textOf [(bs "string", (.str t : V F)), (bs "sep", .str sep)] (bs "sep") ≠ [] then _ else _) _ _ _
      rw [if_pos (show textOf [(bs "string", (.str t : V F)), (bs "sep", .str sep)] (bs "sep") ≠ [] from hs)]
      exact h
  cases hr : X.reSplit sep t with
  | some parts =>
    rw [hr] at hp
    exact runs_only (hp _ _ (runs_pure.2 ⟨rfl, rfl⟩))
  | none =>
    rw [hr] at hp
    exact runs_only (hp _ _ (runs_pb.2 (runs_pure.2 ⟨rfl, rfl⟩)))

/-! ## `**` -/

/-- The functions of the package that take `**`: all but `dict` and `scope`. -/
def splatFns : List String :=
  ["timestamp", "split", "if", "format", "get", "encode", "count", "sum", "min", "max", "enumerate", "len"]

omit W matchF fmtV colName num text fuel X in
/-- The program asks for the arguments first. -/
def Splats (H : Host F S) (p : OD (V F) → Prog F S (V F)) : Prop :=
  ∃ k : OD (V F) → Prog F S (V F), ∀ args st a st', Runs H (p args) st a st' ↔
    ∃ d s1, Runs H (normalizeArgsP args) st d s1 ∧ Runs H (k d) s1 a st'

omit W matchF fmtV colName num text fuel X in
theorem splats_bind {k : OD (V F) → Prog F S (V F)} :
    Splats H (fun args => do
      let args ← normalizeArgsP args
      k args) :=
  ⟨k, fun _ _ _ _ => runs_bind⟩

omit matchF colName num text fuel X in
theorem splats_parse {name : Str} {s : Nat} {fs : List ArgField} {k : Option (OD (V F)) → Prog F S (V F)} :
    Splats H (fun args => parseArgsP W fmtV name s fs args >>= k) := by
  refine ⟨fun d => (do
    match ← parseFieldsP W fmtV s d fs [] with
    | none => do
      prim (.log name)
      pure none
    | some r =>
      if unexpected (fs.map (·.name)) d then do
        prim (.log name)
        pure none
      else pure (some r)) >>= k, fun args st a st' => ?_⟩
  constructor
  · intro h
    obtain ⟨r, s2, h1, h2⟩ := runs_bind.1 h
    obtain ⟨d, s1, h3, h4⟩ := runs_bind.1 h1
    exact ⟨d, s1, h3, runs_bind.2 ⟨r, s2, h4, h2⟩⟩
  · rintro ⟨d, s1, h3, h5⟩
    obtain ⟨r, s2, h4, h2⟩ := runs_bind.1 h5
    exact runs_bind.2 ⟨r, s2, runs_bind.2 ⟨d, s1, h3, h4⟩, h2⟩

omit W matchF fmtV colName num text fuel X in
/-- A dict given for `**` stands for all arguments. -/
theorem splats_dict {p : OD (V F) → Prog F S (V F)} (hp : Splats H p) {args d : OD (V F)} {c : Nat} {s : Nat} {e : AndE}
    {st s1 st' : St F S} {a : V F} (hg : OD.get args (bs "**") = some (.obj (.lazy c)))
    (hl : st.lazies[c]? = some ⟨e, s, none⟩) (hf : Forces H e s st (.dict d) s1) (hd : OD.get d (bs "**") = none) :
    Runs H (p args) st a st' ↔ Runs H (p d) (s1.setLazy c (.dict d)) a st' := by
  obtain ⟨k, hk⟩ := hp
  have hn : Runs H (normalizeArgsP args) st d (s1.setLazy c (.dict d)) := by
    unfold normalizeArgsP
    rw [hg]
    exact runs_bind.2 ⟨.dict d, _, (runs_lazyReduce hl rfl).2 ⟨s1, hf, rfl⟩, runs_pure.2 ⟨rfl, rfl⟩⟩
  have hm : Runs H (normalizeArgsP d) (s1.setLazy c (.dict d)) d (s1.setLazy c (.dict d)) := by
    unfold normalizeArgsP
    rw [hd]
    exact runs_pure.2 ⟨rfl, rfl⟩
  rw [hk, hk]
  constructor
  · rintro ⟨d', s', h1, h2⟩
    obtain ⟨rfl, rfl⟩ := hn.det h1
    exact ⟨_, _, hm, h2⟩
  · rintro ⟨d', s', h1, h2⟩
    obtain ⟨rfl, rfl⟩ := hm.det h1
    exact ⟨_, _, hn, h2⟩

omit matchF colName num text fuel in
/-- Every function of the package but `dict` and `scope` asks for its arguments first. -/
theorem lib_splats {name : String} (h : name ∈ splatFns) (node s : Nat) :
    ∃ p : OD (V F) → Prog F S (V F), (∀ a, libFn W fmtV X (bs name) node s a = some (p a)) ∧ Splats H p := by
  simp only [splatFns, List.mem_cons, List.not_mem_nil, or_false] at h
  rcases h with rfl | rfl | rfl | rfl | rfl | rfl | rfl | rfl | rfl | rfl | rfl | rfl
  · exact ⟨_, fun _ => rfl, splats_parse W fmtV⟩
  · exact ⟨_, fun _ => rfl, splats_parse W fmtV⟩
  · exact ⟨_, fun _ => rfl, splats_bind⟩
  · exact ⟨_, fun _ => rfl, splats_parse W fmtV⟩
  · exact ⟨_, fun _ => rfl, splats_parse W fmtV⟩
  · exact ⟨_, fun _ => rfl, splats_parse W fmtV⟩
  · exact ⟨_, fun _ => rfl, splats_bind⟩
  · exact ⟨_, fun _ => rfl, splats_parse W fmtV⟩
  · exact ⟨_, fun _ => rfl, splats_parse W fmtV⟩
  · exact ⟨_, fun _ => rfl, splats_parse W fmtV⟩
  · exact ⟨_, fun _ => rfl, splats_bind⟩
  · exact ⟨_, fun _ => rfl, splats_parse W fmtV⟩

omit W matchF fmtV colName num text fuel X [FloatOps F] in
theorem get_cells {args : List (String × AndE)} {i n : Nat} {k : String} {e : AndE} (hd : (argNames args).Nodup)
    (hi : args[i]? = some (k, e)) : OD.get (cells n args : OD (V F)) (ident (bs k)) = some (.obj (.lazy (n + i))) := by
  induction args generalizing i n with
  | nil => simp at hi
  | cons a r ih =>
    obtain ⟨k', e'⟩ := a
    obtain ⟨hd1, hd2⟩ := List.nodup_cons.1 (show (ident (bs k') :: argNames r).Nodup from hd)
    cases i with
    | zero =>
      simp only [List.getElem?_cons_zero, Option.some.injEq, Prod.mk.injEq] at hi
      obtain ⟨rfl, rfl⟩ := hi
      simp [cells, OD.get]
    | succ i =>
      simp only [List.getElem?_cons_succ] at hi
      have hne : ¬ ident (bs k') = ident (bs k) := by
        intro h
        rw [h] at hd1
        exact hd1 (List.mem_map.2 ⟨(k, e), List.mem_of_getElem? hi, rfl⟩)
      rw [cells, OD.get, if_neg hne, ih hd2 hi]
      congr 3
      omega

/-- C53 in a query: `f(…, **=e, …)` evaluates `e` once, and if that is a dict the function gets its entries as
arguments; whatever else is written in the call is not evaluated. -/
theorem C53_evaluates {name : String} (hf : name ∈ splatFns) (hx : OD.get X.fns (bs name) = none)
    {node : Nat} {args : List (String × AndE)} {s i : Nat} {e : AndE} {d : OD (V F)}
    {st s1 st' : St F S} {a : V F} (hn : st.Names node name s args) (hd : (argNames args).Nodup)
    (hi : args[i]? = some ("`**`", e)) (h1 : Forces LH e s (st.fnStart node name s args) (.dict d) s1)
    (h2 : OD.get d (bs "**") = none) :
    Runs LH (call (.value (.fcall node name args) s)) st a st' ↔
      Runs LH ((LH).fn (bs name) node s d) (s1.setLazy (st.lazies.length + i) (.dict d)) a st' := by
  have h0 : ∀ name ∈ splatFns,
      splitIdent (bs name) = [bs name] ∧ hasMinus [bs name] = false ∧ libFns.contains (bs name) = true := by
    decide +kernel
  have h0 := h0 name hf
  have hg := fnStart_get (st := st) (node := node) (name := name) (s := s) (args := args) (i := i) hi
  obtain ⟨p, hp, hs⟩ := lib_splats (H := LH) W fmtV X hf node s
  rw [runs_fn_call h0.1 h0.2.1 (lib_isFn _ _ _ _ _ _ _ _ h0.2.2), hn, lib_fn _ _ _ _ _ _ _ _ hx (hp _),
    lib_fn _ _ _ _ _ _ _ _ hx (hp _)]
  refine splats_dict hs ?_ hg h1 h2
  rw [lazyDict_cells (by simpa [OD.keys] using hd), List.nil_append]
  have hs : ident (bs "`**`") = bs "**" := by decide +kernel
  rw [← hs]
  exact get_cells hd hi

end
end

/-! ## Examples -/

/-- A timestamp. -/
def isTime (ns : Int) : V F64 → Bool
  | .time t => decide (t = ns)
  | _ => false

/-- A dict of strings with these keys and values, in this order. -/
def isTexts (l : List (String × String)) : V F64 → Bool
  | .dict d => decide (d.map (·.1) = l.map fun p => bs p.1) &&
      (d.zip l).all fun p => sameV p.1.2 (.str (bs p.2.2))
  | _ => false

example : fnDemo (.fcall 0 "dict" [("b", litE "x"), ("a", litE "y")]) (isTexts [("b", "x"), ("a", "y")]) 0 = true := by
  decide +kernel
example : fnDemo (.fcall 0 "timestamp" [("epoch", .val (.int "1"))]) (isTime 1000000000) 0 = true := by decide +kernel
example : fnDemo (.fcall 0 "timestamp" [("epoch", .val (.int "0"))]) (sameV · .null) 0 = true := by decide +kernel
example : fnDemo (.fcall 0 "timestamp" [("epoch", litE "x")]) (sameV · .null) 1 = true := by decide +kernel
example : fnDemo (.fcall 0 "timestamp" [("winfiletime", .val (.int "116444736010000005"))]) (isTime 1000000000) 0 = true := by
  decide +kernel
example : fnDemo (.fcall 0 "format" []) (fun | .bool false => true | _ => false) 1 = true := by decide +kernel
example : fnDemo (.fcall 0 "len" [("list", .val (.name 1 "nope")), ("`**`", .val (.fcall 2 "dict" [("list", litE "abc")]))])
    (sameV · (.int 3#64)) 0 = true := by decide +kernel
example : fnDemo (.fcall 0 "len" [("`**`", .val (.fcall 2 "dict" [("lost", litE "abc")]))]) (sameV · .null) 1 = true := by
  decide +kernel
example : (timestampF 5#64 0#64 : V F64) = .time 5000000000 := C72_epoch _ _ (by decide)
example : Settled 10 (.arr [.str (bs "a"), .arr [.null]] : V F64) := by
  intro x hx
  simp only [List.mem_cons, List.not_mem_nil, or_false] at hx
  rcases hx with rfl | rfl
  · rfl
  · intro y hy
    simp only [List.mem_cons, List.not_mem_nil, or_false] at hy
    subst hy
    rfl

end Vfilter.Vql
