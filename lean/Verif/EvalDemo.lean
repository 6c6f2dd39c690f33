import Verif.EvalExpr
import Verif.Builtins
import Verif.F64
import Verif.Props.Aggregates
/-!
# The built-in host is well behaved, and a small host for examples
-/
set_option linter.all false

namespace Vfilter.Vql

section
variable {F S : Type}

theorem polite_reduceP (v : V F) (o : List Nat) : (reduceP v : Prog F S _).Polite false o := by
  unfold reduceP
  split
  · exact polite_call _ _
  · trivial

theorem polite_anyFieldP (s : Nat) (v : V F) (o : List Nat) : (anyFieldP s v : Prog F S _).Polite false o := by
  unfold anyFieldP
  split
  · exact polite_call _ _
  · trivial

theorem polite_ifElseP (s : Nat) (e : Option (V F)) (o : List Nat) :
    (ifElseP s e : Prog F S _).Polite false o := by
  unfold ifElseP
  split
  · trivial
  · trivial
  · refine (polite_anyFieldP _ _ _).bind (fun t => ?_)
    split
    · exact polite_call _ _
    · trivial

theorem polite_ifThenP (s : Nat) (t e : Option (V F)) (o : List Nat) :
    (ifThenP s t e : Prog F S _).Polite false o := by
  unfold ifThenP
  split
  · trivial
  · trivial
  · refine (polite_anyFieldP _ _ _).bind (fun t => ?_)
    split
    · refine (polite_call_bind _ _ _).2 (fun x => ?_)
      split
      · trivial
      · exact polite_ifElseP _ _ _
    · trivial

theorem polite_ifFnP (truth : V F → Nat → Prog F S Bool) (ht : ∀ v s o, (truth v s).Polite false o)
    (s : Nat) (args : OD (V F)) (o : List Nat) : (ifFnP truth s args).Polite false o := by
  unfold ifFnP
  split
  · exact polite_prim_bind rfl (fun _ => trivial)
  · refine (polite_anyFieldP _ _ _).bind (fun c => ?_)
    split
    · exact polite_prim_bind rfl (fun _ => trivial)
    · refine (ht _ _ _).bind (fun b => ?_)
      split
      · exact polite_ifThenP _ _ _ _
      · exact polite_ifElseP _ _ _

theorem polite_toRowP (s : Nat) (v : V F) (o : List Nat) : (toRowP s v : Prog F S _).Polite false o :=
  (polite_call_bind _ _ _).2 (fun _ => trivial)

theorem polite_wrapEvalP (s : Nat) (v : V F) (o : List Nat) : (wrapEvalP s v : Prog F S _).Polite false o := by
  unfold wrapEvalP
  split
  · exact polite_mapP (fun a => polite_toRowP _ _ _) _
  · trivial
  · exact (polite_toRowP _ _ _).bind (fun _ => trivial)

theorem polite_evalBranchP (s : Nat) (v : V F) (o : List Nat) :
    (evalBranchP s v : Prog F S _).Polite false o := by
  unfold evalBranchP
  split
  · exact polite_call _ _
  · exact polite_wrapEvalP _ _ _

theorem polite_ifPluginP (truth : V F → Nat → Prog F S Bool) (ht : ∀ v s o, (truth v s).Polite false o)
    (s : Nat) (args : OD (V F)) (o : List Nat) : (ifPluginP truth s args).Polite false o := by
  unfold ifPluginP
  split
  · exact polite_prim_bind rfl (fun _ => trivial)
  · refine (polite_anyFieldP _ _ _).bind (fun c => ?_)
    split
    · exact polite_prim_bind rfl (fun _ => trivial)
    · refine (polite_reduceP _ _).bind (fun t => ?_)
      have : (optQueryP (OD.get args (bs "else")) : Prog F S _).Polite false o := by
        unfold optQueryP
        split
        · trivial
        · exact (polite_reduceP _ _).bind (fun _ => trivial)
      refine this.bind (fun e => ?_)
      split
      · exact polite_prim_bind rfl (fun _ => trivial)
      · refine (ht _ _ _).bind (fun b => ?_)
        split
        · exact polite_evalBranchP _ _ _
        · split
          · exact polite_evalBranchP _ _ _
          · trivial

variable [FloatOps F]

theorem polite_itemsFnP (W : World F Obj) (op : V F → AggOp F Obj) (node s : Nat) (args : OD (V F))
    (o : List Nat) : (itemsFnP W op node s args : Prog F S _).Polite false o := by
  unfold itemsFnP
  have : (optFieldP s (OD.get args (bs "items")) : Prog F S _).Polite false o := by
    unfold optFieldP
    split
    · trivial
    · exact polite_anyFieldP _ _ _
  refine this.bind (fun i => ?_)
  split
  · exact polite_prim_bind rfl (fun _ => trivial)
  · exact polite_prim rfl

theorem polite_stdTruth (W : World F Obj) (v : V F) (s : Nat) (o : List Nat) :
    (stdTruth W v s : Prog F S _).Polite false o := (polite_reduceP _ _).bind (fun _ => trivial)

variable (W : World F Obj) (matchF : V F → V F → Bool) (fmtV : V F → Str)
  (colName : Col → Str) (num : Str → Option (V F)) (sources : OD (List (V F)))

/-- The built-in functions and plugins only change scopes of their own. -/
theorem stdHost_polite : (stdHost W matchF fmtV colName num sources : Host F S).Polite where
  fn n node s args := by
    show (stdFn W (stdTruth W) n node s args).Polite false []
    unfold stdFn
    (repeat' split)
    · exact polite_ifFnP _ (polite_stdTruth W) _ _ _
    · trivial
    · exact polite_itemsFnP _ _ _ _ _ _
    · exact polite_itemsFnP _ _ _ _ _ _
    · trivial
  plugin n s args := by
    show Prog.Polite false (ite _ _ _) []
    (repeat' split)
    · exact polite_ifPluginP _ (polite_stdTruth W) _ _ _
    · trivial
    · trivial
  arith op a b s := by
    refine (polite_reduceP _ _).bind (fun a => ?_)
    cases op
    · exact (polite_reduceP _ _).bind (fun _ => trivial)
    · exact (polite_reduceP _ _).bind (fun _ => trivial)
    · exact (polite_reduceP _ _).bind (fun _ => trivial)
    · trivial
  rel op a b s := (polite_reduceP _ _).bind (fun _ => (polite_reduceP _ _).bind (fun _ => trivial))
  truth v s := polite_stdTruth W v s []
  toStr v s := (polite_reduceP _ _).bind (fun _ => trivial)
  sort k d rows s := trivial
  assocImpl a k s p h := nomatch h
  assocDefault a k s := trivial
  hostMembers v s := trivial

theorem stdHost_sort : SortOK (stdHost W matchF fmtV colName num sources : Host F S) := by
  intro k desc l s st out st' h x hx
  have h' : Runs (stdHost W matchF fmtV colName num sources : Host F S)
    (pure (insertionSort (rowLess W (fun r => assocStr W r k) desc) l)) st out st' := h
  obtain ⟨rfl, rfl⟩ := runs_pure.1 h'
  exact (insertionSort_perm _ _).mem_iff.1 hx

end

/-! ## A host for examples -/

/-- Numbers of the examples: unsigned decimal integers. -/
def demoNum (t : Str) : Option (V F64) :=
  if t.all (fun c => decide (48 ≤ c.toNat ∧ c.toNat ≤ 57)) then
    some (.int (BitVec.ofNat 64 (t.foldl (fun n c => 10 * n + (c.toNat - 48)) 0)))
  else none

/-- Text of an expression that is just a name. -/
def demoText : AndE → Str
  | .mk (.mk (.cmp (.mk (.mk (.mk (.sym (.mk _ s _ _)) []) []) []) none) []) [] => s
  | _ => bs "?"

/-- Names of the examples' columns: the alias, else the text. -/
def demoName : Col → Str
  | .mk .star _ => bs "*"
  | .mk (.expr e) [] => demoText e
  | .mk _ a => a

/-- The built-in functions with fixed sources. -/
def demo (sources : OD (List (V F64))) : Host F64 Unit :=
  stdHost {} (fun _ _ => false) (fun _ => bs "?") demoName demoNum sources

theorem demo_polite (sources : OD (List (V F64))) : (demo sources).Polite := stdHost_polite _ _ _ _ _ _

/-- A name. -/
def Value.name (n : Nat) (s : String) : Value := .sym (.mk n (bs s) false [])
/-- A function call. -/
def Value.fcall (n : Nat) (s : String) (args : List (String × AndE)) : Value :=
  .sym (.mk n (bs s) true (args.map (fun a => .mk (bs a.1) (.expr a.2))))
def Value.int (s : String) : Value := .num (bs s)
/-- A comparison of two values. -/
def Comma.rel (a : Value) (op : String) (b : Value) : Comma :=
  .mk (.mk (.mk (.cmp (.mk (.mk (.mk a []) []) []) (some (.mk (bs op) (.mk (.mk (.mk b []) []) [])))) []) []) []
/-- A source. -/
def Plugin.src (s : String) : Plugin := .mk (bs s) true []

/-- A root scope with these variables. -/
def St.init (vars : OD (V F64)) : St F64 Unit := { scopes := [⟨[.dict vars], 0, none, none⟩], host := () }

/-- The rows `SELECT` produces in the initial state. -/
def demoRows (sources : OD (List (V F64))) (vars : OD (V F64)) (q : Select) : Option (List (V F64)) :=
  (exec (demo sources) 60 (call (.select q 0)) (St.init vars)).map (·.1)

def demoSrc : OD (List (V F64)) :=
  [(bs "src", [.dict [(bs "a", .int 1#64), (bs "b", .str (bs "x"))],
    .dict [(bs "a", .int 2#64), (bs "b", .str (bs "y"))],
    .dict [(bs "a", .int 3#64), (bs "b", .str (bs "x"))]])]

/-- Equality of plain data. -/
def sameV : V F64 → V F64 → Bool
  | .null, .null => true
  | .bool a, .bool b => a == b
  | .int a, .int b => decide (a = b)
  | .str a, .str b => decide (a = b)
  | .arr l, .arr m => sameL l m
  | .query l, .query m => sameL l m
  | .dict d, .dict e => sameD d e
  | _, _ => false
where
  sameL : List (V F64) → List (V F64) → Bool
  | [], [] => true
  | a :: l, b :: m => sameV a b && sameL l m
  | _, _ => false
  sameD : List (Str × V F64) → List (Str × V F64) → Bool
  | [], [] => true
  | (j, a) :: l, (k, b) :: m => decide (j = k) && sameV a b && sameD l m
  | _, _ => false

/-- The query finishes with these rows. -/
def gives (sources : OD (List (V F64))) (vars : OD (V F64)) (q : Select) (rows : List (V F64)) : Bool :=
  match demoRows sources vars q with
  | some l => sameV (.arr l) (.arr rows)
  | none => false

example : gives demoSrc [] (.mk false true [] (.src "src") (some (.rel (.name 0 "a") ">" (.int "1")))
    none none none) [.dict [(bs "a", .int 2#64), (bs "b", .str (bs "y"))],
    .dict [(bs "a", .int 3#64), (bs "b", .str (bs "x"))]] = true := by decide +kernel

mutual
theorem sameV_eq : ∀ (a b : V F64), sameV a b = true → a = b
  | .null, b, h => by cases b <;> simp_all [sameV]
  | .bool _, b, h => by cases b <;> simp_all [sameV]
  | .int _, b, h => by cases b <;> simp_all [sameV]
  | .str _, b, h => by cases b <;> simp_all [sameV]
  | .arr l, b, h => by
    cases b <;> simp_all [sameV]
    exact sameL_eq _ _ h
  | .query l, b, h => by
    cases b <;> simp_all [sameV]
    exact sameL_eq _ _ h
  | .dict d, b, h => by
    cases b <;> simp_all [sameV]
    exact sameD_eq _ _ h
  | .float _, b, h => by cases b <;> simp_all [sameV]
  | .obj _, b, h => by cases b <;> simp_all [sameV]
  | .time _, b, h => by cases b <;> simp_all [sameV]
theorem sameL_eq : ∀ (a b : List (V F64)), sameV.sameL a b = true → a = b
  | [], b, h => by cases b <;> simp_all [sameV.sameL]
  | x :: l, b, h => by
    cases b with
    | nil => simp [sameV.sameL] at h
    | cons y m =>
      simp only [sameV.sameL, Bool.and_eq_true] at h
      rw [sameV_eq x y h.1, sameL_eq l m h.2]
theorem sameD_eq : ∀ (a b : List (Str × V F64)), sameV.sameD a b = true → a = b
  | [], b, h => by cases b <;> simp_all [sameV.sameD]
  | (j, x) :: l, b, h => by
    cases b with
    | nil => simp [sameV.sameD] at h
    | cons p m =>
      obtain ⟨k, y⟩ := p
      simp only [sameV.sameD, Bool.and_eq_true, decide_eq_true_eq] at h
      rw [h.1.1, sameV_eq x y h.1.2, sameD_eq l m h.2]
end

/-- Results of the examples are results of `Runs`. -/
theorem runs_of_gives {sources : OD (List (V F64))} {vars : OD (V F64)} {q : Select}
    {rows : List (V F64)} (h : gives sources vars q rows = true) :
    ∃ st', Runs (demo sources) (call (.select q 0)) (St.init vars) rows st' := by
  unfold gives demoRows at h
  cases he : exec (demo sources) 60 (call (.select q 0)) (St.init vars) with
  | none => simp [he] at h
  | some r =>
    simp only [he, Option.map_some] at h
    have := sameV_eq _ _ h
    cases this
    exact ⟨r.2, 60, he⟩

/-- A sequence of statements finishes with these rows (one list per statement). -/
def givesAll (sources : OD (List (V F64))) (vars : OD (V F64)) (l : List Stmt)
    (rows : List (List (V F64))) : Bool :=
  match runStmts (demo sources) 60 l 0 (St.init vars) with
  | some (rs, _) => sameV (.arr (rs.map .arr)) (.arr (rows.map .arr))
  | none => false

/-- `e AS name` -/
def Col.ex (e : AndE) (name : String) : Col := .mk (.expr e) (bs name)
/-- `SELECT e AS name FROM src` -/
def Select.one (e : AndE) (name : String) (src : Plugin) : Select :=
  .mk false false [.ex e name] src none none none none
/-- `LET name = e` or `LET name <= e` -/
def Stmt.letE (name : String) (mat : Bool) (e : AndE) : Stmt := .let_ (bs name) false [] mat (.expr e)
/-- `a + b` -/
def AndE.plus (a b : Value) : AndE :=
  .mk (.mk (.cmp (.mk (.mk (.mk a []) []) [.mk (bs "+") (.mk (.mk b []) [])]) none) []) []

end Vfilter.Vql
