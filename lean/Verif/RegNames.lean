import Verif.Summary

/-!
# Register names and unused registers (`/repo/src/register_utils.h`, `/repo/src/passes.h:422-529`)
-/

namespace Verif

/-- `arch`, `/repo/src/register_utils.h:8`. -/
def arch : List Char := ['x', '8', '6', '_', '6', '4', ':', ':']

/-- The tests on a name without its prefix, `/repo/src/register_utils.h:12-41`, given the
whole name.  `none` is the exception of `at(0)` on an empty string. -/
def normReg (full reg : List Char) : Option (List Char) :=
  match reg with
  | 'e' :: rest => some (arch ++ 'r' :: rest)
  | _ =>
    if reg = ['a', 'x'] ∨ reg = ['a', 'h'] ∨ reg = ['a', 'l'] then some (arch ++ ['r', 'a', 'x'])
    else if reg = ['b', 'x'] ∨ reg = ['b', 'h'] ∨ reg = ['b', 'l'] then some (arch ++ ['r', 'b', 'x'])
    else if reg = ['c', 'x'] ∨ reg = ['c', 'h'] ∨ reg = ['c', 'l'] then some (arch ++ ['r', 'c', 'x'])
    else if reg = ['d', 'x'] ∨ reg = ['d', 'h'] ∨ reg = ['d', 'l'] then some (arch ++ ['r', 'd', 'x'])
    else if reg = ['s', 'i'] then some (arch ++ ['r', 's', 'i'])
    else if reg = ['d', 'i'] then some (arch ++ ['r', 'd', 'i'])
    else if reg = ['b', 'p'] then some (arch ++ ['r', 'b', 'p'])
    else if reg = ['s', 'p'] then some (arch ++ ['r', 's', 'p'])
    else match reg with
      | 'r' :: [] => none
      | 'r' :: c1 :: rest =>
        if c1.isDigit && ((c1 :: rest).getLast (by simp)).isAlpha then
          match rest with
          | [] => none
          | c2 :: _ => if c2.isDigit then some (arch ++ ['r', c1, c2]) else some (arch ++ ['r', c1])
        else some full
      | _ => some full

/-- `NormalizeRegisterName`, `/repo/src/register_utils.h:7-44`; the first eight characters
are dropped without looking at them, and a shorter name makes `substr` throw. -/
def normalize (name : List Char) : Option (List Char) :=
  if name.length < 8 then none else normReg name (name.drop 8)

/-! ## Unused registers -/

/-- The set `all`, `/repo/src/passes.h:470-475`, in the order of `std::set<std::string>`. -/
def allRegNames : List String :=
  ["x86_64::r10", "x86_64::r11", "x86_64::r12", "x86_64::r13", "x86_64::r14", "x86_64::r15",
   "x86_64::r8", "x86_64::r9", "x86_64::rax", "x86_64::rbx", "x86_64::rcx", "x86_64::rdi",
   "x86_64::rdx", "x86_64::rsi"]

/-- Address expressions of memory operands (`InstructionAPI::Expression`).
`/repo/src/passes.h:433-449`. -/
inductive AddrExpr where
  | imm (v : Int)
  | reg (name : List Char)
  | add (a b : AddrExpr)
  | mul (a b : AddrExpr)
  | deref (a : AddrExpr)

/-- State of `RedZoneAccessVisitor`, `/repo/src/passes.h:424-432`. -/
structure RedZone where
  disp : Int := 0
  plusOp : Bool := false
  findSP : Bool := false
  onlySP : Bool := true

/-- `apply` visits the operands, then the node itself; the visitor's methods are
`/repo/src/passes.h:434-449`. -/
def RedZone.visit (v : RedZone) : AddrExpr → RedZone
  | .imm i => { v with disp := i }
  | .reg name =>
    if name = arch ++ ['r', 's', 'p'] then { v with findSP := true } else { v with onlySP := false }
  | .add a b => { (v.visit a).visit b with plusOp := true }
  | .mul a b => (v.visit a).visit b
  | .deref a => v.visit a

/-- `isRedZoneAccess`, `/repo/src/passes.h:451`. -/
def RedZone.isRedZoneAccess (v : RedZone) : Bool :=
  v.plusOp && v.findSP && decide (v.disp < 0) && v.onlySP

/-- What the pass asks about one instruction.  `/repo/src/passes.h:483-512`. -/
structure RegInsn where
  /-- names of the registers read -/
  reads : List (List Char) := []
  /-- names of the registers written -/
  writes : List (List Char) := []
  /-- `findSP` before the instruction, if known -/
  height : Option Int := none
  readsMemory : Bool := false
  writesMemory : Bool := false
  /-- memory operands -/
  operands : List AddrExpr := []

/-- The set `used` and the facts about the stack gathered so far.  `/repo/src/passes.h:479-516`. -/
structure UnusedState where
  used : List (List Char) := []
  moveDownSP : Bool := false
  redZone : List Int := []

/-- The memory operands of an instruction, `/repo/src/passes.h:509-518`. -/
def urOperand (z : List Int) (e : AddrExpr) : List Int :=
  let v := ({} : RedZone).visit e
  if v.isRedZoneAccess then v.disp :: z else z

/-- One instruction, `/repo/src/passes.h:482-519`. -/
def urInsn (st : UnusedState) (i : RegInsn) : Option UnusedState := do
  let move := match i.height with
    | some h => st.moveDownSP || decide (-8 - h ≥ 128)
    | none => st.moveDownSP
  let r ← i.reads.mapM normalize
  let w ← i.writes.mapM normalize
  let used := w ++ r ++ st.used
  if !i.writesMemory && !i.readsMemory then
    return { st with used := used, moveDownSP := move }
  else
    return { st with used := used, moveDownSP := move, redZone := i.operands.foldl urOperand st.redZone }

/-- `UnusedRegisterAnalysis::RunLocalAnalysis`, `/repo/src/passes.h:460-528`, on the
instructions of the function in order. -/
def unusedRegisters (insns : List RegInsn) (s : FuncSummary) : Option FuncSummary :=
  if s.assumeUnsafe then some s
  else if s.callees.length > 0 then some s
  else do
    let st ← insns.foldlM urInsn
      { used := [], moveDownSP := s.moveDownSP, redZone := s.redZoneAccess }
    return { s with
      moveDownSP := st.moveDownSP
      redZoneAccess := st.redZone
      unusedRegs := allRegNames.filter (fun r => !st.used.contains r.toList) }

end Verif
