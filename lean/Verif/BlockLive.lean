import Verif.SnippetSpec
import Verif.Summary

/-!
# Dead registers inside a block and moved snippets (`/repo/src/passes.h:588-784`)
-/

namespace Verif

/-- A register operand as Dyninst reports it: its base register and its size in bytes.
`/repo/src/passes.h:606-614`. -/
inductive RegRef where
  | gpr (r : Reg) (size : Nat)
  | flag
  /-- instruction pointer, vector, segment registers -/
  | other
  deriving DecidableEq, Repr

/-- Operations the pass distinguishes; `ret` stands for `e_ret`, `e_ret_near`, `e_ret_far`.
`/repo/src/passes.h:687,724-731`. -/
inductive Op where
  | push | pop | ret | other
  deriving DecidableEq, Repr

/-- What the pass asks about one instruction.  `/repo/src/passes.h:597-748`. -/
structure BInsn where
  addr : Nat
  op : Op := .other
  reads : List RegRef := []
  writes : List RegRef := []
  writesMemory : Bool := false
  deriving DecidableEq, Repr

/-- The general registers in the order of their names, as `std::set<std::string>` iterates;
`rsp` is never inserted.  `/repo/src/passes.h:675-680`. -/
def sortedRegs : List Reg :=
  [.r10, .r11, .r12, .r13, .r14, .r15, .r8, .r9, .rax, .rbp, .rbx, .rcx, .rdi, .rdx, .rsi]

/-- Does the instruction write all of `r`?  `/repo/src/passes.h:606-620`. -/
def BInsn.kills (i : BInsn) (r : Reg) : Bool :=
  r != .rsp && (i.writes.contains (.gpr r 4) || i.writes.contains (.gpr r 8))

/-- Is a part of `r` read?  `/repo/src/passes.h:622-625`. -/
def BInsn.uses (i : BInsn) (r : Reg) : Bool :=
  i.reads.any fun x => match x with
    | .gpr r' _ => r' == r
    | _ => false

/-- `CalculateBlockLevelLiveness`, `/repo/src/passes.h:594-628`: the set `d[o]` for the first
instruction of a suffix of the block.  Names are normalised base names, i.e. the names of
the base registers (`normalize_base`). -/
def deadRegs : List BInsn → List Reg
  | [] => []
  | i :: rest => sortedRegs.filter fun r => (i.kills r || (deadRegs rest).contains r) && !i.uses r

/-- `MoveSP`, `/repo/src/passes.h:630-638`: only the full register counts. -/
def BInsn.movesSP (i : BInsn) : Bool := i.writes.contains (.gpr .rsp 8)

/-- `ReadFlags`, `/repo/src/passes.h:640-648`. -/
def BInsn.readsFlags (i : BInsn) : Bool := i.reads.contains .flag

/-- The variables of the two scans; `dead` is the set `d[newAddr]`.
`/repo/src/passes.h:653-656,719-722`. -/
structure Scan where
  newAddr : Nat := 0
  saveCount : Nat := 0
  raOffset : Nat := 0
  dead : List Reg := []
  deriving DecidableEq, Repr

/-- The update when more dead registers are found, `/repo/src/passes.h:658-665, 735-742`. -/
def Scan.improve (sc : Scan) (addr height : Nat) (dead : List Reg) : Scan :=
  if dead.length > sc.saveCount then
    { newAddr := addr, saveCount := if dead.length > 2 then 2 else dead.length,
      raOffset := height, dead := dead }
  else sc

/-- The structure built from the variables, `/repo/src/passes.h:699-713, 750-764`. -/
def Scan.data (sc : Scan) : MoveInst where
  newAddr := sc.newAddr
  raOffset := sc.raOffset
  saveCount := sc.saveCount
  reg1 := match sc.dead with
    | [] => ""
    | r :: _ => r.name
  reg2 := match sc.dead with
    | _ :: r :: _ => r.name
    | _ => ""

/-- The loop of `CalculateEntryInstPoint`, `/repo/src/passes.h:656-697`. -/
def entryScan : List BInsn → Nat → Scan → Scan
  | [], _, sc => sc
  | i :: rest, height, sc =>
    let sc := sc.improve i.addr height (deadRegs (i :: rest))
    if sc.saveCount = 2 then sc
    else if i.op = .push then entryScan rest (height + 8) sc
    else if i.writesMemory then sc
    else if i.movesSP then sc
    else entryScan rest height sc

/-- `s->entryData[blockEntry]`, `/repo/src/passes.h:650-714`. -/
def entryData (insns : List BInsn) : Option MoveInst :=
  let sc := entryScan insns 0 {}
  if sc.saveCount > 0 ∧ sc.newAddr > 0 then some sc.data else none

/-- `s->entryFixedData[blockEntry]`, `/repo/src/passes.h:667-684`: the first instruction of the
block, if a register is dead there. -/
def entryFixed : List BInsn → Option MoveInst
  | [] => none
  | i :: rest =>
    let sc := ({} : Scan).improve i.addr 0 (deadRegs (i :: rest))
    if sc.saveCount > 0 then some sc.data else none

/-- The loop of `CalculateExitInstPoint`, `/repo/src/passes.h:722-748`, over the reversed
block; `suffix` is the part already passed. -/
def exitScan : List BInsn → List BInsn → Nat → Scan → Scan
  | [], _, _, sc => sc
  | i :: rev, suffix, height, sc =>
    if i.op = .ret then exitScan rev (i :: suffix) height sc
    else if i.writesMemory then sc
    else if i.op ≠ .pop ∧ (i.movesSP = true ∨ i.readsFlags = true) then sc
    else
      let height := if i.op = .pop then height + 8 else height
      let sc := sc.improve i.addr height (deadRegs (i :: suffix))
      if sc.saveCount = 2 then sc else exitScan rev (i :: suffix) height sc

/-- `s->exitData[blockEntry]`, `/repo/src/passes.h:716-769`. -/
def exitData (insns : List BInsn) : Option MoveInst :=
  let sc := exitScan insns.reverse [] 0 {}
  if sc.saveCount > 0 ∧ sc.newAddr > 0 then some sc.data else none

end Verif
