import Verif.Strings
import Verif.Jit

/-!
# Function summaries (`/repo/src/pass_manager.h`)

Functions and blocks are identified by numbers standing for their addresses as C++
objects.  Sets and maps keyed by such pointers are lists in iteration order.
-/

namespace Verif

/-- Identity of a `ParseAPI::Function*`.  `/repo/src/pass_manager.h:147`. -/
abbrev Func := Nat

/-- Identity of a `ParseAPI::Block*`.  `/repo/src/pass_manager.h:193`. -/
abbrev Blk := Nat

/-- `FuncSummary`, `/repo/src/pass_manager.h:146-243`.  Left out: `cfg`, `stats`,
`all_writes`, `stack_writes`, `stack_heights`, the heap maps and the dead register
sets, which are modelled where they are used.  Every scalar starts at zero because
`new FuncSummary()` value-initialises (`/repo/src/pass_manager.h:390`). -/
structure FuncSummary where
  safe : Bool := false
  assumeUnsafe : Bool := false
  selfUnsafeWrites : Bool := false
  childWrites : Bool := false
  writes : Bool := false
  unsafeBlocks : List Blk := []
  pltCalls : List (Nat × List Char) := []
  hasUnknownCf : Bool := false
  hasIndirectCf : Bool := false
  moveDownSP : Bool := false
  redZoneAccess : List Int := []
  callees : List Func := []
  callers : List Func := []
  unusedRegs : List String := []
  entryData : List (Nat × MoveInst) := []
  exitData : List (Nat × MoveInst) := []
  entryFixedData : List (Nat × MoveInst) := []
  blockEndSPHeight : List (Nat × Int) := []
  blockEntrySPHeight : List (Nat × Int) := []
  unknownWrites : List (Blk × List Nat) := []
  safePaths : Nat := 0
  funcExceptionSafe : Bool := false

/-- `summaries_`, `/repo/src/pass_manager.h:457`, for the functions of the code object. -/
abbrev Sums := Func → FuncSummary

/-- Assignment through the pointer `summaries[f]`.  `/repo/src/pass_manager.h:387-394`. -/
def Sums.set (S : Sums) (f : Func) (s : FuncSummary) : Sums := fun g => if g = f then s else S g

@[simp] theorem Sums.set_same (S : Sums) (f : Func) (s : FuncSummary) : S.set f s f = s := by
  simp [Sums.set]

theorem Sums.set_other (S : Sums) {f g : Func} (s : FuncSummary) (h : g ≠ f) :
    S.set f s g = S g := by
  simp [Sums.set, h]

/-- `FuncSummary::IsSafePLTCall`, `/repo/src/pass_manager.h:300-309`. -/
def isSafePLTCall (name : List Char) : Bool :=
  if name = "malloc".toList then true
  else if strFind name "_Zna".toList = some 0 then true
  else if name = "strlen".toList then true
  else if name = "strcmp".toList then true
  else false

/-- `FuncSummary::unsafePLTCalls`, `/repo/src/pass_manager.h:292-298`. -/
def FuncSummary.unsafePLTCalls (s : FuncSummary) : Bool := go s.pltCalls
where
  /-- the loop -/
  go : List (Nat × List Char) → Bool
    | [] => false
    | (_, name) :: rest => if isSafePLTCall name then go rest else true

/-- `FuncSummary::shouldUseRegisterFrame`, `/repo/src/pass_manager.h:252-260`. -/
def FuncSummary.shouldUseRegisterFrame (s : FuncSummary) : Bool :=
  if s.callees.length > 0 then false
  else if s.unusedRegs.length = 0 then false
  else if s.hasUnknownCf || !s.pltCalls.isEmpty then false
  else true

/-- `FuncSummary::lowerInstrumentation`, `/repo/src/pass_manager.h:282-290`; `entry` is
`func->entry()`. -/
def FuncSummary.lowerInstrumentation (s : FuncSummary) (entry : Blk) : Bool :=
  if s.unsafeBlocks.contains entry then false
  else if s.blockEndSPHeight.isEmpty then false
  else if s.safePaths = 0 then false
  else true

/-- `Pass::IsSafeFunction`, `/repo/src/pass_manager.h:339`; no pass of the default
pipeline that comes last overrides it (`/repo/src/instrument.cc:969-980`). -/
def FuncSummary.isSafe (s : FuncSummary) : Bool := !s.writes

end Verif
