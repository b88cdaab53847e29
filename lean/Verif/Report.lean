import Verif.Plan

/-!
# The report at the end of a run (`/repo/src/instrument.cc:1045-1102`)
-/

namespace Verif

/-- The name of the file which is written, `/repo/src/instrument.cc:1045-1049`. -/
def outputName (output binary : String) : String :=
  if output.isEmpty then binary ++ "_cfi" else output

/-- `n * 100.0 / d`; `none` if that is not a number or infinite.  Rounding is left out.
`/repo/src/instrument.cc:1051,1061,1068,1087-1099`. -/
def percent (n : Int) (d : Nat) : Option Rat :=
  if d = 0 then none else some (n * 100 / d)

/-- A line of the report.  `/repo/src/instrument.cc:1051-1099`. -/
structure Row where
  count : Int
  percent : Option Rat
  deriving DecidableEq

/-- A line with the share of `n` in `d`.  `/repo/src/instrument.cc:1051-1099`. -/
def Row.of (n : Int) (d : Nat) : Row := ⟨n, Verif.percent n d⟩

/-- Does the push save registers? (`mid == nullptr`, `/repo/src/instrument.cc:483-487`, `:514-518`) -/
def PushKind.noDead : PushKind → Bool
  | .stack false _ false => true
  | _ => false

/-- Does the push use the shadow stack?  `/repo/src/instrument.cc:480-492,511-527`. -/
def PushKind.onStack : PushKind → Bool
  | .stack .. => true
  | .reg _ => false

/-- Likewise for checks (`/repo/src/instrument.cc:547-550`). -/
def PopKind.noDead : PopKind → Bool
  | .stack false => true
  | _ => false

/-- Does the check use the shadow stack?  `/repo/src/instrument.cc:545-558`. -/
def PopKind.onStack : PopKind → Bool
  | .stack _ => true
  | .reg => false

/-- `lowering_no_dead_reg_entry_site`, `lowering_no_dead_reg_exit_site` and `lowering_dead_reg_site`
(`/repo/src/instrument.cc:477-553`), as functions of the snippets inserted. -/
structure LoweringSites where
  noEntry : Nat := 0
  noExit : Nat := 0
  all : Nat := 0
  deriving DecidableEq, Repr

/-- The three counters as one function changes them.
`/repo/src/instrument.cc:484-489,515-520,548-552`. -/
def Plan.loweringSites : Plan → LoweringSites
  | .lowered L =>
    { noEntry := L.edgePush.countP (·.2.noDead) + L.blockPush.countP (·.2.1.noDead)
      noExit := L.pops.countP (·.2.1.noDead)
      all := L.edgePush.countP (·.2.onStack) + L.blockPush.countP (·.2.1.onStack) +
        L.pops.countP (·.2.1.onStack) }
  | _ => {}

/-- Sums of the counters.  `/repo/src/instrument.cc:77-79`. -/
def LoweringSites.add (a b : LoweringSites) : LoweringSites :=
  ⟨a.noEntry + b.noEntry, a.noExit + b.noExit, a.all + b.all⟩

/-- The numbers printed.  `/repo/src/instrument.cc:1051-1101`. -/
structure Report where
  safe : Row
  regStack : Row
  lowered : Row
  withIndirectOrPlt : Nat
  withIndirect : Nat
  withPlt : Nat
  total : Nat
  writes : Nat
  stack : Row
  global : Row
  heap : Row
  arg : Row
  heapOrArg : Row
  unknown : Row
  noDead : Nat
  sites : Nat
  lowering : LoweringSites

/-- `/repo/src/instrument.cc:1051-1101`. -/
def report (l : List (BFunc × Plan)) (st : Stats) : Report where
  safe := .of st.safeFns.length st.totalFunc
  regStack := .of st.regStackFns.length st.totalFunc
  lowered := .of st.loweredFns.length st.totalFunc
  withIndirectOrPlt := st.withIndirectOrPlt
  withIndirect := st.withIndirect
  withPlt := st.withPlt
  total := st.totalFunc
  writes := st.memoryWrites
  stack := .of st.stackWrites st.memoryWrites
  global := .of st.globalWrites st.memoryWrites
  heap := .of st.heapWrites st.memoryWrites
  arg := .of st.argWrites st.memoryWrites
  heapOrArg := .of st.heapOrArgWrites st.memoryWrites
  unknown := .of st.unknownWrites st.memoryWrites
  noDead := st.noDeadRegSite
  sites := st.deadRegSite
  lowering := (l.map fun x => x.2.loweringSites).foldl LoweringSites.add {}

end Verif
