import Verif.FastPath

/-!
# Choosing what to instrument and how (`/repo/src/instrument.cc:567-1000`)
-/

namespace Verif

/-- `BPatch_procedureLocation`, the kinds of points that occur.
`/repo/src/instrument.cc:599,628,636-637,800`. -/
inductive PointType
  | entry | exit | blockEntry | blockExit | insn
  deriving DecidableEq, Repr

/-- A `BPatch_point`: its kind, its block and, for `insn`, the instruction's address.
`/repo/src/instrument.cc:782,796,817,828`. -/
structure Pt where
  kind : PointType
  blk : Blk
  addr : Nat := 0
  deriving DecidableEq, Repr

/-- The flags of a `MemoryWrite` (`/repo/src/pass_manager.h:41-76`). -/
structure WriteInfo where
  stack : Bool := false
  global : Bool := false
  heap : Bool := false
  arg : Bool := false
  heapOrArg : Bool := false
  deriving DecidableEq, Repr

/-- A `BPatch_function` as the instrumenter sees it.  `/repo/src/instrument.cc:700-703`. -/
structure BFunc where
  /-- the function of the parsed code object -/
  func : Func
  name : String
  /-- `getBaseAddr()` -/
  base : Nat
  /-- `getCFG()` -/
  cfg : FlowGraph
  /-- blocks of `getEntryPoints(..)` -/
  entryPoints : List Blk
  /-- blocks of `getExitPoints(..)` -/
  exitPoints : List Blk
  /-- `b->getStartAddress()` -/
  start : Blk → Nat
  /-- does `b->findPoint(addr)` find an instruction? -/
  isInsn : Blk → Nat → Bool
  /-- `retstatus() == NORETURN` -/
  noReturn : Bool := false
  /-- name of the function's region -/
  region : String := ".text"

/-- The static counters, `/repo/src/instrument.cc:65-79`, and the lists of
`InstrumentationResult`, `/repo/src/instrument.cc:81-85`.  Counters are unbounded. -/
structure Stats where
  totalFunc : Nat := 0
  withIndirectOrPlt : Nat := 0
  withIndirect : Nat := 0
  withPlt : Nat := 0
  memoryWrites : Nat := 0
  stackWrites : Nat := 0
  heapWrites : Nat := 0
  globalWrites : Nat := 0
  argWrites : Nat := 0
  heapOrArgWrites : Nat := 0
  deadRegSite : Nat := 0
  noDeadRegSite : Nat := 0
  safeFns : List String := []
  loweredFns : List String := []
  regStackFns : List String := []
  deriving DecidableEq, Repr

/-- What was done with a function.  Pushes and checks are at the given points, in order; `full`
is the code after the `if`.  `/repo/src/instrument.cc:730-872`. -/
inductive Plan
  | skipped
  | lowered (L : Lowered)
  | regFrame (pushes checks : List Blk)
  | fastPath (push : Pt × PushKind) (checks : List (Pt × PopKind))
  | entryExit (pushes : List (Pt × PushKind)) (checks : List (Pt × PopKind))
  | full (pushes checks : List Blk)

/-- `Skippable`, `/repo/src/instrument.cc:575-593`; `skip` is `skip_addrs`. -/
def skippable (fl : InstrFlags) (skip : List Nat) (f : BFunc) (s : Option FuncSummary) : Bool :=
  if fl.disableSfe then false
  else if (match s with | some s => s.safe | none => false) then true
  else skip.contains f.base

/-- `MoveInstrumentation`, `/repo/src/instrument.cc:595-651`: whether the point was moved, the
point, and the counters.  `none`: `findPoint` returned a null pointer, which the callers
dereference. -/
def moveInstrumentation (fl : InstrFlags) (f : BFunc) (s : Option FuncSummary) (p : Pt) (st : Stats) :
    Option (Bool × Pt × Stats) :=
  if fl.disableRegSaveOpt then some (false, p, st)
  else match s with
    | none => some (false, p, st)
    | some s =>
      let st := { st with deadRegSite := st.deadRegSite + 1 }
      let no := some (false, p, { st with noDeadRegSite := st.noDeadRegSite + 1 })
      match p.kind with
      | .entry =>
        match f.cfg.entries with
        | [b] =>
          if (f.cfg.inc b).length > 0 then no
          else match s.entryData.lookup (f.start b) with
            | none => no
            | some mid =>
              if f.isInsn b mid.newAddr then some (true, ⟨.insn, b, mid.newAddr⟩, st) else none
        | _ => no
      | .blockEntry =>
        match s.entryData.lookup (f.start p.blk) with
        | none => no
        | some mid =>
          if f.isInsn p.blk mid.newAddr then some (true, ⟨.insn, p.blk, mid.newAddr⟩, st) else none
      | .exit | .blockExit =>
        match s.exitData.lookup (f.start p.blk) with
        | none => no
        | some mid =>
          if f.isInsn p.blk mid.newAddr then some (true, ⟨.insn, p.blk, mid.newAddr⟩, st) else none
      | .insn => no

/-- The loop over entry points, `/repo/src/instrument.cc:807-812`, and the push of the fast path,
lines 771-775. -/
def planPushes (fl : InstrFlags) (f : BFunc) (s : Option FuncSummary) :
    List Pt → Stats → Option (List (Pt × PushKind) × Stats)
  | [], st => some ([], st)
  | p :: ps, st => do
    let (m, p, st) ← moveInstrumentation fl f s p st
    let (l, st) ← planPushes fl f s ps st
    return ((p, .stack m 0 false) :: l, st)

/-- The loops over exit points, `/repo/src/instrument.cc:783-795, 821-834`. -/
def planChecks (fl : InstrFlags) (f : BFunc) (s : Option FuncSummary) :
    List Pt → Stats → Option (List (Pt × PopKind) × Stats)
  | [], st => some ([], st)
  | p :: ps, st => do
    let (m, p, st) ← moveInstrumentation fl f s p st
    let (l, st) ← planChecks fl f s ps st
    return ((p, .stack m) :: l, st)

/-- How many types a write has, `/repo/src/instrument.cc:679-684`. -/
def WriteInfo.types (w : WriteInfo) : Nat :=
  w.stack.toNat + w.global.toNat + w.heap.toNat + w.arg.toNat + w.heapOrArg.toNat

/-- `CountMemoryWrites`, `/repo/src/instrument.cc:674-698`; `none` is the failed assertion. -/
def countWrites (asserts : Bool) : List WriteInfo → Stats → Option Stats
  | [], st => some st
  | w :: ws, st =>
    if asserts && decide (w.types ≥ 2) then none
    else countWrites asserts ws
      { st with
        memoryWrites := st.memoryWrites + 1
        stackWrites := st.stackWrites + w.stack.toNat
        globalWrites := st.globalWrites + w.global.toNat
        heapWrites := st.heapWrites + w.heap.toNat
        argWrites := st.argWrites + w.arg.toNat
        heapOrArgWrites := st.heapOrArgWrites + w.heapOrArg.toNat }

/-- The counters at `/repo/src/instrument.cc:719-726`. -/
def countCalls (s : FuncSummary) (st : Stats) : Stats :=
  { st with
    withIndirectOrPlt := st.withIndirectOrPlt + (s.hasUnknownCf || !s.pltCalls.isEmpty).toNat
    withIndirect := st.withIndirect + s.hasUnknownCf.toNat
    withPlt := st.withPlt + (!s.pltCalls.isEmpty).toNat }

/-- `DoStackOpsUsingRegisters`, `/repo/src/instrument.cc:287-317`: the condition. -/
def useRegFrame (fl : InstrFlags) (s : Option FuncSummary) : Bool :=
  !fl.disableRegFrame && (match s with | some s => s.shouldUseRegisterFrame | none => false)

/-- `InsertSnippet` at exits, `/repo/src/instrument.cc:168-183`. -/
def insertExits (co : CodeObj) (f : BFunc) : List Blk :=
  f.exitPoints.filter fun b => !isNonreturningCall (co.targets b)

/-- The code after the safe function test in light mode, `/repo/src/instrument.cc:737-841`.
`MarkExceptionSafeCalls` and `AddInlineHint` only leave hints for Dyninst. -/
def instrumentLight (fl : InstrFlags) (co : CodeObj) (f : BFunc) (s : Option FuncSummary) (st : Stats) :
    Option (Plan × Stats) := do
  match ← doLowering fl co f.func s with
  | some L => return (.lowered L, { st with loweredFns := st.loweredFns ++ [f.name] })
  | none =>
    if useRegFrame fl s then
      return (.regFrame f.entryPoints (insertExits co f),
        { st with regStackFns := st.regStackFns ++ [f.name] })
    else match s, checkFastPath fl.disableLowering f.cfg with
      | some _, some (b, xs) =>
        let st := { st with loweredFns := st.loweredFns ++ [f.name] }
        let (pushes, st) ← planPushes fl f s [⟨.blockEntry, b, 0⟩] st
        let (checks, st) ← planChecks fl f s (xs.map fun b => ⟨.blockExit, b, 0⟩) st
        match pushes with
        | [p] => return (.fastPath p checks, st)
        | _ => none
      | _, _ =>
        let (pushes, st) ← planPushes fl f s (f.entryPoints.map fun b => ⟨.entry, b, 0⟩) st
        let (checks, st) ← planChecks fl f s ((insertExits co f).map fun b => ⟨.exit, b, 0⟩) st
        return (.entryExit pushes checks, st)

/-- `InstrumentFunction`, `/repo/src/instrument.cc:700-873`; `an` is `analyses` and `writes` the
table `all_writes` of the summary. -/
def instrumentFunction (fl : InstrFlags) (skip : List Nat) (co : CodeObj)
    (an : Nat → Option (FuncSummary × List WriteInfo)) (f : BFunc) (st : Stats) :
    Option (Plan × Stats) :=
  let st := { st with totalFunc := st.totalFunc + 1 }
  if fl.shadowStack = "light" then
    let st? := match an f.base with
      | none => some st
      | some (s, ws) => countWrites fl.asserts ws (countCalls s st)
    match st? with
    | none => none
    | some st =>
      let s := (an f.base).map Prod.fst
      if skippable fl skip f s then some (.skipped, { st with safeFns := st.safeFns ++ [f.name] })
      else instrumentLight fl co f s st
  else some (.full f.entryPoints (insertExits co f), st)

/-- One iteration of `InstrumentModule`, `/repo/src/instrument.cc:923-941`. -/
def moduleStep (fl : InstrFlags) (skip : List Nat) (co : CodeObj)
    (an : Nat → Option (FuncSummary × List WriteInfo)) (r : List (BFunc × Plan) × Stats) (f : BFunc) :
    Option (List (BFunc × Plan) × Stats) :=
  if f.noReturn then some r
  else if f.region ≠ ".text" then some r
  else (instrumentFunction fl skip co an f r.2).map fun (p, st) => (r.1 ++ [(f, p)], st)

/-- A `BPatch_object`, with its parsed code and the result of the analyses
(`/repo/src/instrument.cc:963-985`). -/
structure BObject where
  path : String
  modules : List (List BFunc)
  code : CodeObj
  analyses : Nat → Option (FuncSummary × List WriteInfo)

/-- `IsSharedLibrary`, `/repo/src/parse.cc:28-44`. -/
def isSharedLibrary (path : String) : Bool := (strFind path.toList ".so".toList).isSome

/-- `IsSystemCode`, `/repo/src/parse.cc:46-57`. -/
def isSystemCode (path : String) : Bool :=
  if (strFind path.toList "libm.so.6".toList).isSome then true
  else if (strFind path.toList "libc.so.6".toList).isSome then true
  else if (strFind path.toList "libpthread.so.0".toList).isSome then true
  else if (strFind path.toList "ld-linux-x86-64.so.2".toList).isSome then true
  else false

/-- `InstrumentCodeObject`, `/repo/src/instrument.cc:944-1000`. -/
def instrumentObject (fl : InstrFlags) (skip : List Nat) (o : BObject)
    (r : List (BFunc × Plan) × Stats) : Option (List (BFunc × Plan) × Stats) :=
  if fl.threatModel = "trust_system" ∧ isSystemCode o.path = true then some r
  else
    let an := if fl.shadowStack = "light" then o.analyses else fun _ => none
    o.modules.foldlM (fun r m => m.foldlM (moduleStep fl skip o.code an) r) r

/-- The loop over code objects of `Instrument`, `/repo/src/instrument.cc:1034-1043`. -/
def instrument (fl : InstrFlags) (skip : List Nat) (objs : List BObject) :
    Option (List (BFunc × Plan) × Stats) :=
  objs.foldlM (fun r o =>
    if !fl.libs && isSharedLibrary o.path then some r else instrumentObject fl skip o r) ([], {})

/-- `unknown`, `/repo/src/instrument.cc:1093-1098`. -/
def Stats.unknownWrites (st : Stats) : Int :=
  (st.memoryWrites : Int) - st.stackWrites - st.globalWrites - st.heapWrites - st.argWrites
    - st.heapOrArgWrites

/-- The two counts of the statistics file, `/repo/src/pass_manager.h:412-422`; `names` are the
names of the safe functions and `total` is `co->funcs().size()`. -/
def safeStats (total : Nat) (names : List String) : Int × Int :=
  let n := names.eraseDups.length
  (n, (total : Int) - n)

end Verif
