import Verif.HeapLoc
import Verif.CallGraph

/-!
# The heap analysis (`/repo/src/heap.h:232-716`)

Contexts are identified by block and index of the instruction in its block; in the code they
are objects found by the addresses of the block and the instruction (distinct blocks of a
function start at different addresses).  Memory management (`Cleanup`) and messages are left
out.
-/

namespace Verif

/-- A register after `getBaseRegister()`: general purpose or of another class.
`/repo/src/heap.h:466-467,511-512`. -/
inductive HReg where
  | gpr (r : Reg)
  | other (n : Nat)
  deriving DecidableEq, Repr

/-- Keys of `HeapContext::regs`; `none` is the invalid `MachRegister()`.  `/repo/src/heap.h:237`. -/
abbrev RKey := Option HReg

/-! ## Maps -/

/-- `find`.  `/repo/src/heap.h:285`. -/
def amGet {κ : Type} [DecidableEq κ] : List (κ × ALoc) → κ → Option ALoc
  | [], _ => none
  | (k, v) :: m, k' => if k = k' then some v else amGet m k'

/-- `m[k] = v` where `v` is already what is stored.  `/repo/src/heap.h:513`. -/
def amSet {κ : Type} [DecidableEq κ] : List (κ × ALoc) → κ → ALoc → List (κ × ALoc)
  | [], k, v => [(k, v)]
  | (k', w) :: m, k, v => if k' = k then (k', v) :: m else (k', w) :: amSet m k v

/-- The merge with the entry of the other map, if there is one.  `/repo/src/heap.h:284-289`. -/
def ALoc.meetOpt (v : ALoc) : Option ALoc → ALoc
  | some w => v.meet w
  | none => v

/-- `PointWiseMeet`, `/repo/src/heap.h:281-297`. -/
def pointMeet {κ : Type} [DecidableEq κ] (m1 m2 : List (κ × ALoc)) : List (κ × ALoc) :=
  m1.map (fun p => (p.1, p.2.meetOpt (amGet m2 p.1))) ++
  (m2.filter (fun p => (amGet m1 p.1).isNone)).map (fun p => (p.1, p.2.copy))

/-- Assertions met in `PointWiseMeet`.  `/repo/src/heap.h:281-297`. -/
def pointMeetOk {κ : Type} [DecidableEq κ] (m1 m2 : List (κ × ALoc)) : Bool :=
  (m1 ++ m2).all (fun p => match amGet m1 p.1, amGet m2 p.1 with
    | some v, some w => v.meetOk w
    | none, some w => w.copyOk
    | _, none => true)

/-- Equality of maps: the same keys with equal values.  `/repo/src/heap.h:300`. -/
def amSame {κ : Type} [DecidableEq κ] (m1 m2 : List (κ × ALoc)) : Bool :=
  (m1 ++ m2).all (fun p => match amGet m1 p.1, amGet m2 p.1 with
    | some v, some w => v.same w
    | _, _ => false)

/-! ## Contexts -/

/-- `HeapContext`, `/repo/src/heap.h:232-240`: the facts. -/
structure HCtx where
  regs : List (RKey × ALoc)
  stack : List (Int × ALoc)
  deriving DecidableEq, Repr

/-- The constructor, `/repo/src/heap.h:242-259`. -/
def HCtx.init : HCtx where
  regs := [.rax, .rbx, .rcx, .rdx, .rsp, .rbp, .rsi, .rdi, .r8, .r9, .r10, .r11, .r12, .r13, .r14,
    .r15].map (fun r => (some (.gpr r), ALoc.flat .bottom))
  stack := []

/-- `HeapContext::Meet` for two different objects, `/repo/src/heap.h:275-279`. -/
def HCtx.meet (c d : HCtx) : HCtx := ⟨pointMeet c.regs d.regs, pointMeet c.stack d.stack⟩

/-- Assertions met in `Meet` of contexts.  `/repo/src/heap.h:275-279`. -/
def HCtx.meetOk (c d : HCtx) : Bool := pointMeetOk c.regs d.regs && pointMeetOk c.stack d.stack

/-- `operator==`, `/repo/src/heap.h:299-301`. -/
def HCtx.same (c d : HCtx) : Bool := amSame c.regs d.regs && amSame c.stack d.stack

/-- The value of `regs[k]`; a missing entry is created with the default value.
`/repo/src/heap.h:531,619,625,659`. -/
def HCtx.reg (c : HCtx) (k : RKey) : ALoc := (amGet c.regs k).getD (.flat .bottom)

/-- The effect of evaluating `regs[k]`.  `/repo/src/heap.h:531,619,625,659`. -/
def HCtx.touch (c : HCtx) (k : RKey) : HCtx := { c with regs := amSet c.regs k (c.reg k) }

/-- `regs[k] = v`.  `/repo/src/heap.h:513,531`. -/
def HCtx.setReg (c : HCtx) (k : RKey) (v : ALoc) : HCtx :=
  { c with regs := amSet c.regs k v.assign }

/-- `stack[h]` after the entry has been created if it was missing, `/repo/src/heap.h:597-600,
615-618`. -/
def HCtx.slot (c : HCtx) (h : Int) : ALoc := (amGet c.stack h).getD (.stackAt h)

/-- Writing `stack[h]`.  `/repo/src/heap.h:599,617-619`. -/
def HCtx.setSlot (c : HCtx) (h : Int) (v : ALoc) : HCtx := { c with stack := amSet c.stack h v }

/-! ## Operands -/

/-- `InstructionAPI::Expression`; the register is the base register of the one written in the
operand.  `/repo/src/heap.h:447-486`. -/
inductive HExpr where
  | reg (r : HReg)
  | imm
  | deref (e : HExpr)
  | bin (add : Bool) (l r : HExpr)
  deriving Repr

/-- `RegisterVisitor`, `/repo/src/heap.h:447-475`. -/
structure RegVisitor where
  addFound : Bool := false
  complex : Bool := false
  base : RKey := none

/-- `expr->apply(v)`: Dyninst visits the parts of an expression before the expression.
`/repo/src/heap.h:480`. -/
def HExpr.apply : HExpr → RegVisitor → RegVisitor
  | .reg r, v =>
    if v.complex && !v.addFound then v
    else match v.base with
      | none => { v with base := some r }
      | some _ => v
  | .imm, v => v
  | .deref e, v => e.apply v
  | .bin add l r, v =>
    let v := r.apply (l.apply v)
    { v with complex := true, addFound := v.addFound || add }

/-- `ParseOperand`, `/repo/src/heap.h:477-486`; the register starts out invalid. -/
def parseOperand (e : Option HExpr) (v : RegVisitor) : RegVisitor × RKey :=
  match e with
  | none => (v, none)
  | some e => let v := e.apply v; (v, v.base)

/-- Base registers of the first two operands, as `HandleMov` and `HandleLea` get them,
`/repo/src/heap.h:519-528, 575-592`: `reset` forgets the base only. -/
def operandRegs (o0 o1 : Option HExpr) : RKey × RKey :=
  let (v, d) := parseOperand o0 {}
  let (_, s) := parseOperand o1 { v with base := none }
  (d, s)

/-! ## Instructions -/

/-- The cases of `TransferFunction`.  `/repo/src/heap.h:491-503`. -/
inductive HOp where
  | mov | call | lea | other
  deriving DecidableEq, Repr

/-- What the analysis asks about an instruction.  `/repo/src/heap.h:488-631`. -/
structure HInsn where
  addr : Nat
  op : HOp
  op0 : Option HExpr := none
  op1 : Option HExpr := none
  readsMemory : Bool := false
  writesMemory : Bool := false
  /-- base registers of the write set -/
  written : List HReg := []

/-- The inputs: a function of a code object, its decoded instructions, incoming edges
(`b->sources()`) and `stack_heights` (source and destination height by address).  `order` is
the iteration order of `std::set<HeapContext*>`, which depends on addresses.
`/repo/src/heap.h:310-354`. -/
structure HeapIn where
  co : CodeObj
  f : Func
  insns : Blk → List HInsn
  sources : Blk → List Edge
  heights : Nat → Option (Int × Int)
  order : List (Blk × Nat) → List (Blk × Nat) := id

/-- `HandleUnknown`, `/repo/src/heap.h:507-516`. -/
def handleUnknown (ins : HInsn) (c : HCtx) : HCtx :=
  ins.written.foldl (fun c r => match r with
    | .gpr _ => c.setReg (some r) (.flat .top)
    | .other _ => c) c

/-- `HandleLea`, `/repo/src/heap.h:518-535`. -/
def handleLea (ins : HInsn) (c : HCtx) : HCtx :=
  match operandRegs ins.op0 ins.op1 with
  | (some (.gpr d), some (.gpr s)) =>
    (c.touch (some (.gpr s))).setReg (some (.gpr d)) (c.reg (some (.gpr s)))
  | _ => handleUnknown ins c

/-- The target of the last call edge, `/repo/src/heap.h:555-559`. -/
def callTarget (I : HeapIn) (b : Blk) : Nat :=
  (I.co.targets b).foldl (fun t e => if e.type == .call && !e.sink then I.co.start e.trg else t) 0

/-- `setToHeap`, `/repo/src/heap.h:560-566`. -/
def setToHeap (I : HeapIn) (b : Blk) : Bool :=
  callTarget I b != 0 &&
  match I.co.linkage (callTarget I b) with
  | some name => name = "malloc".toList || strFind name "_Zna".toList = some 0
  | none => false

/-- `HandleCall`, `/repo/src/heap.h:537-572`. -/
def handleCall (I : HeapIn) (b : Blk) (c : HCtx) : HCtx :=
  let c := [.rcx, .rdx, .rsi, .rdi, .r8, .r9, .r10, .r11].foldl
    (fun c r => c.setReg (some (.gpr r)) (.flat .top)) c
  if !setToHeap I b then c.setReg (some (.gpr .rax)) (.flat .top)
  else c.setReg (some (.gpr .rax)) (.flat .heap)

/-- `HandleMov`, `/repo/src/heap.h:574-631`. -/
def handleMov (I : HeapIn) (ins : HInsn) (c : HCtx) : HCtx :=
  let (d, s) := operandRegs ins.op0 ins.op1
  if d = none then c
  else if ins.readsMemory then
    match I.heights ins.addr with
    | some (src, _) => (c.setSlot src (c.slot src)).setReg d (c.slot src).pointTo
    | none => c.setReg d (.flat .top)
  else if ins.writesMemory then
    match I.heights ins.addr with
    | some (_, dest) => (c.touch s).setSlot dest ((c.slot dest).setPointTo (c.reg s))
    | none => c
  else if s ≠ none then (c.touch s).setReg d (c.reg s)
  else c.setReg d (.flat .top)

/-- `TransferFunction`, `/repo/src/heap.h:488-505`. -/
def transfer (I : HeapIn) (b : Blk) (ins : HInsn) (c : HCtx) : HCtx :=
  match ins.op with
  | .mov => handleMov I ins c
  | .call => handleCall I b c
  | .lea => handleLea ins c
  | .other => handleUnknown ins c

/-- Assertions met in `TransferFunction` (assignments of constants meet none).
`/repo/src/heap.h:488-631`. -/
def transferOk (I : HeapIn) (ins : HInsn) (c : HCtx) : Bool :=
  match ins.op with
  | .lea => (c.reg (operandRegs ins.op0 ins.op1).2).assignOk
  | .mov =>
    let s := (operandRegs ins.op0 ins.op1).2
    (c.reg s).assignOk && ALoc.setPointToOk (c.reg s) &&
    match I.heights ins.addr with
    | some (src, _) => (c.slot src).pointToOk && (c.slot src).pointTo.assignOk &&
        (c.slot src).assignOk
    | none => true
  | _ => true

/-! ## The work list -/

/-- A context: block and index of the instruction.  `/repo/src/heap.h:318`. -/
abbrev HNode := Blk × Nat

/-- `info_` and the work list of `AnalyseBlocks`.  `/repo/src/heap.h:318-319,711`. -/
structure HState where
  info : HNode → HCtx
  work : List (HNode × List HNode)

/-- Assignment of a context.  `/repo/src/heap.h:386-392`. -/
def HState.setCtx (st : HState) (n : HNode) (c : HCtx) : HState :=
  { st with info := fun m => if m = n then c else st.info m }

/-- The instruction of a context, if there is one.  `/repo/src/heap.h:235`. -/
def HeapIn.insn (I : HeapIn) (n : HNode) : Option HInsn := (I.insns n.1)[n.2]?

/-- The last contexts of the sources of a block, `/repo/src/heap.h:427-439`. -/
def predNodes (I : HeapIn) (b : Blk) : List HNode :=
  ((I.sources b).filter (fun e => !e.interproc && e.type != .catch && (I.co.blocks I.f).contains e.src)).map
    (fun e => (e.src, (I.insns e.src).length - 1))

/-- The registers set to ARG, `/repo/src/heap.h:420-425`. -/
def argRegs : List Reg := [.rdi, .rsi, .rdx, .rcx, .r8, .r9]

/-- `regs[r].type = ARG` for the argument registers.  `/repo/src/heap.h:420-425`. -/
def setArgs (c : HCtx) : HCtx :=
  argRegs.foldl (fun c r =>
    { c with regs := amSet c.regs (some (.gpr r)) ((c.reg (some (.gpr r))).setType .arg) }) c

/-- `UpdateWorkList`, `/repo/src/heap.h:413-441`. -/
def updateWork (I : HeapIn) (st : HState) (b : Blk) : HState :=
  if b = I.co.entry I.f then
    let st := st.setCtx (b, 0) (setArgs (st.info (b, 0)))
    { st with work := st.work ++ [((b, 0), [])] }
  else { st with work := st.work ++ [((b, 0), I.order (predNodes I b))] }

/-- The merges at the head of the loop, `/repo/src/heap.h:388-391`. -/
def meetPreds (info : HNode → HCtx) (n : HNode) (c : HCtx) : List HNode → HCtx
  | [] => c
  | p :: ps => meetPreds info n (if p = n then c else c.meet (info p)) ps

/-- Assertions met in these merges.  `/repo/src/heap.h:388-391`. -/
def meetPredsOk (info : HNode → HCtx) (n : HNode) (c : HCtx) : List HNode → Bool
  | [] => true
  | p :: ps => (p = n || c.meetOk (info p)) && meetPredsOk info n (if p = n then c else c.meet (info p)) ps

/-- What follows a change, `/repo/src/heap.h:394-407`. -/
def pushNext (I : HeapIn) (comp : List Blk) (n : HNode) (st : HState) : HState :=
  if n.2 + 1 < (I.insns n.1).length then
    { st with work := st.work ++ [((n.1, n.2 + 1), [n])] }
  else (I.co.targets n.1).foldl (fun st e =>
    if e.trg ∈ comp then updateWork I st e.trg else st) st

/-- The transfer function of a context.  A context without instruction does not exist in the
code.  `/repo/src/heap.h:392`. -/
def transferAt (I : HeapIn) (n : HNode) (c : HCtx) : HCtx :=
  match I.insn n with
  | some ins => transfer I n.1 ins c
  | none => c

/-- Merges and transfer, `/repo/src/heap.h:388-392`. -/
def newFact (I : HeapIn) (info : HNode → HCtx) (n : HNode) (preds : List HNode) : HCtx :=
  transferAt I n (meetPreds info n (info n) preds)

/-- One iteration of the loop of `AnalyseBlocks`, `/repo/src/heap.h:381-410`; `none` when the
work list is empty. -/
def heapStep (I : HeapIn) (comp : List Blk) (st : HState) : Option HState :=
  match st.work with
  | [] => none
  | (n, preds) :: rest =>
    let c := newFact I st.info n preds
    let st' : HState := { (st.setCtx n c) with work := rest }
    some (if HCtx.same (st.info n) c then st' else pushNext I comp n st')

/-- Assertions met in an iteration.  `/repo/src/heap.h:381-410`. -/
def heapStepOk (I : HeapIn) (st : HState) : Bool :=
  match st.work with
  | [] => true
  | (n, preds) :: _ =>
    meetPredsOk st.info n (st.info n) preds &&
    match I.insn n with
    | some ins => transferOk I ins (meetPreds st.info n (st.info n) preds)
    | none => true

/-- The start of `AnalyseBlocks`, `/repo/src/heap.h:377-379`: the first block in the order of
the set.  A component is never empty. -/
def heapStart (I : HeapIn) (comp : List Blk) (info : HNode → HCtx) : HState :=
  match comp with
  | [] => ⟨info, []⟩
  | b :: _ => updateWork I ⟨info, []⟩ b

/-- Iterations of the loop.  `/repo/src/heap.h:381-410`. -/
inductive HeapSteps (I : HeapIn) (comp : List Blk) : HState → HState → Prop
  | refl {st} : HeapSteps I comp st st
  | step {a b c} : HeapSteps I comp a b → heapStep I comp b = some c → HeapSteps I comp a c

/-- `AnalyseBlocks` leaves the contexts `info'`.  `/repo/src/heap.h:376-411`. -/
def AnalysesBlocks (I : HeapIn) (comp : List Blk) (info info' : HNode → HCtx) : Prop :=
  ∃ st, HeapSteps I comp (heapStart I comp info) st ∧ heapStep I comp st = none ∧ st.info = info'

/-- `Analyse`, `/repo/src/heap.h:356-365`, over the components in the order in which they come
off the stack. -/
inductive Analyses (I : HeapIn) : List (List Blk) → (HNode → HCtx) → (HNode → HCtx) → Prop
  | nil {info} : Analyses I [] info info
  | cons {comp comps i j k} : AnalysesBlocks I comp i j → Analyses I comps j k →
      Analyses I (comp :: comps) i k

/-! ## The summary -/

/-- What `UpdateFunctionSummary` reads and writes.  `/repo/src/heap.h:633-698`. -/
structure HeapOut where
  unknownWrites : List (Blk × List Nat)
  unsafeBlocks : List Blk
  heapWrites : List (Nat × Nat) := []
  argWrites : List (Nat × Nat) := []
  heapOrArgWrites : List (Nat × Nat) := []

/-- The type found for the address written by the instruction at `addr`,
`/repo/src/heap.h:641-660`; `none` if there is no context or no register. -/
def writeType (I : HeapIn) (info : HNode → HCtx) (b : Blk) (addr : Nat) : Option Loc :=
  match (I.insns b).findIdx? (fun i => i.addr == addr) with
  | none => none
  | some k => match I.insn (b, k) with
    | none => none
    | some ins => match (parseOperand ins.op0 {}).2 with
      | none => none
      | some r => some ((info (b, k)).reg (some r)).type

/-- One address, `/repo/src/heap.h:661-682`; the second part is `to_remove`. -/
def updAddr (I : HeapIn) (info : HNode → HCtx) (b : Blk) (o : HeapOut × List Nat) (addr : Nat) :
    HeapOut × List Nat :=
  match writeType I info b addr with
  | some .heap => ({ o.1 with heapWrites := o.1.heapWrites ++ [(I.co.start b, addr)] }, o.2 ++ [addr])
  | some .arg => ({ o.1 with argWrites := o.1.argWrites ++ [(I.co.start b, addr)] }, o.2)
  | some .heapOrArg =>
    ({ o.1 with heapOrArgWrites := o.1.heapOrArgWrites ++ [(I.co.start b, addr)] }, o.2)
  | _ => o

/-- One entry of `unknown_writes`, `/repo/src/heap.h:635-691`.  The loop variable is a copy, so
removing addresses from it does not change the map; the second part is `to_remove_blocks`. -/
def updEntry (I : HeapIn) (info : HNode → HCtx) (o : HeapOut × List Blk) (p : Blk × List Nat) :
    HeapOut × List Blk :=
  let r := p.2.foldl (updAddr I info p.1) (o.1, [])
  if (p.2.filter (fun a => !r.2.contains a)).isEmpty then (r.1, o.2 ++ [p.1]) else (r.1, o.2)

/-- `UpdateFunctionSummary`, `/repo/src/heap.h:633-698`. -/
def updateSummary (I : HeapIn) (info : HNode → HCtx) (o : HeapOut) : HeapOut :=
  let r := o.unknownWrites.foldl (updEntry I info) (o, [])
  { r.1 with
    unknownWrites := r.1.unknownWrites.filter (fun p => !r.2.contains p.1)
    unsafeBlocks := r.1.unsafeBlocks.filter (fun b => !r.2.contains b) }

/-- The same for a function's summary; the maps of writes by kind are left out there.
`/repo/src/heap.h:633-698`. -/
def heapSummary (I : HeapIn) (info : HNode → HCtx) (s : FuncSummary) : FuncSummary :=
  let o := updateSummary I info { unknownWrites := s.unknownWrites, unsafeBlocks := s.unsafeBlocks }
  { s with unknownWrites := o.unknownWrites, unsafeBlocks := o.unsafeBlocks }

end Verif
