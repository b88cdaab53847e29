import Verif.Heap

/-!
# Specification for the heap analysis: where the values of a run come from

Values are followed by their origin; adding to a pointer does not change it.  Stack words are
named by their height, as in `stack_heights`; accesses to them are taken to be of whole words.
-/

namespace Verif

/-- Where a value comes from. -/
inductive PVal where
  /-- the allocator -/
  | heap
  /-- an argument register at the entry of the function -/
  | arg
  /-- another register at the entry; `rsp` stands for addresses in the frame -/
  | entry (r : Reg)
  /-- a stack word at the entry -/
  | word (h : Int)
  /-- a constant which the function stores in its frame -/
  | const
  /-- a segment or control register -/
  | special
  /-- anything else -/
  | other
  deriving DecidableEq, Repr

/-- Values for which the analysis has no location. -/
def PVal.Untracked : PVal → Prop
  | .entry _ | .word _ | .const | .special => True
  | _ => False

/-- A state of the program: values of registers and of stack slots. -/
structure PState where
  regs : Reg → PVal
  slots : Int → PVal

/-- The registers which hold the arguments of a call, in the calling convention of System V. -/
def sysvArgs : List Reg := [.rdi, .rsi, .rdx, .rcx, .r8, .r9]

/-- The state in which a function starts. -/
def PState.start : PState where
  regs r := if r ∈ sysvArgs then .arg else .entry r
  slots h := .word h

/-- The register an address expression begins with: the pointer, in `base + index * scale +
displacement`. -/
def HExpr.pointer : HExpr → Option HReg
  | .reg r => some r
  | .imm => none
  | .deref e => e.pointer
  | .bin _ l _ => l.pointer

/-- The value of a source operand that is a register or a constant. -/
def PState.source (s : PState) : Option HExpr → PVal
  | some (.reg (.gpr r)) => s.regs r
  | some (.reg (.other _)) => .special
  | _ => .const

/-- The function calls the allocator: `malloc` or an `operator new[]`. -/
def IsAllocator (co : CodeObj) (e : Edge) : Prop :=
  e.sink = false ∧ ∃ name, co.linkage (co.start e.trg) = some name ∧
    (name = "malloc".toList ∨ ∃ l, name = "_Zna".toList ++ l)

/-- The registers which a call preserves. -/
def preserved : List Reg := [.rbx, .rbp, .rsp, .r12, .r13, .r14, .r15]

/-- A stack word which the function loads, at a height known to the analysis. -/
def HeapIn.Loads (I : HeapIn) (h : Int) : Prop :=
  ∃ b i x, b ∈ I.co.blocks I.f ∧ i ∈ I.insns b ∧ i.op = .mov ∧ i.readsMemory = true ∧
    I.heights i.addr = some (h, x)

/-- Stack words stay as they are: all which the function loads in a tame run, else all if the
instruction does not write memory. -/
def SlotsKept (I : HeapIn) (tame writes : Bool) (s s' : PState) : Prop :=
  ∀ h, (tame = true ∧ I.Loads h) ∨ writes = false → s'.slots h = s.slots h

/-- The registers except one stay as they are. -/
def KeptBut (d : HReg) (s s' : PState) : Prop := ∀ r, HReg.gpr r ≠ d → s'.regs r = s.regs r

/-- What an instruction does, in block `b`. -/
inductive OStep (I : HeapIn) (tame : Bool) (b : Blk) (i : HInsn) (s s' : PState) : Prop
  /-- a load of a word at a known height -/
  | loadWord {d e h x} : i.op = .mov → i.op0 = some (.reg d) → i.op1 = some (.deref e) →
      i.readsMemory = true → I.heights i.addr = some (h, x) → KeptBut d s s' →
      (∀ r, d = .gpr r → s'.regs r = s.slots h) → SlotsKept I tame false s s' → OStep I tame b i s s'
  /-- a load from elsewhere -/
  | load {d e} : i.op = .mov → i.op0 = some (.reg d) → i.op1 = some (.deref e) →
      i.readsMemory = true → I.heights i.addr = none → KeptBut d s s' →
      SlotsKept I tame false s s' → OStep I tame b i s s'
  /-- between registers -/
  | move {d r} : i.op = .mov → i.op0 = some (.reg d) → i.op1 = some (.reg r) →
      i.readsMemory = false → i.writesMemory = false → KeptBut d s s' →
      (∀ q, d = .gpr q → s'.regs q = s.source i.op1) → SlotsKept I tame false s s' →
      OStep I tame b i s s'
  /-- a constant -/
  | imm {d} : i.op = .mov → i.op0 = some (.reg d) → i.op1 = some .imm →
      i.readsMemory = false → i.writesMemory = false → KeptBut d s s' →
      SlotsKept I tame false s s' → OStep I tame b i s s'
  /-- a store to a word at a known height, with an address like `(%rsp)` or `8(%rsp)` -/
  | storeWord {e p h x} : i.op = .mov → i.op0 = some (.deref e) →
      (e = .reg p ∨ ∃ y, e = .bin true (.reg p) y) →
      (i.op1 = some .imm ∨ ∃ r, i.op1 = some (.reg r)) →
      i.readsMemory = false → i.writesMemory = true → I.heights i.addr = some (x, h) →
      s'.regs = s.regs → s'.slots h = s.source i.op1 →
      (∀ y, y ≠ h → s'.slots y = s.slots y) → OStep I tame b i s s'
  /-- a store elsewhere -/
  | store {e} : i.op = .mov → i.op0 = some (.deref e) → i.readsMemory = false →
      i.writesMemory = true → I.heights i.addr = none → s'.regs = s.regs →
      SlotsKept I tame true s s' → OStep I tame b i s s'
  /-- the address of something reached through a pointer -/
  | lea {d e p} : i.op = .lea → i.op0 = some (.reg (.gpr d)) → i.op1 = some e →
      e.pointer = some (.gpr p) → KeptBut (.gpr d) s s' → s'.regs d = s.regs p →
      SlotsKept I tame false s s' → OStep I tame b i s s'
  /-- another address, like `8(%rip)` -/
  | leaOther {d e} : i.op = .lea → i.op0 = some (.reg (.gpr d)) → i.op1 = some e →
      (e = .imm ∨ ∃ n, e.pointer = some (.other n)) → .gpr d ∈ i.written → KeptBut (.gpr d) s s' →
      SlotsKept I tame false s s' → OStep I tame b i s s'
  | call {e} : i.op = .call → e ∈ I.co.targets b → e.type = .call →
      (IsAllocator I.co e → s'.regs .rax = .heap) → (∀ r, r ∈ preserved → s'.regs r = s.regs r) →
      SlotsKept I tame true s s' → OStep I tame b i s s'
  /-- a call through a pointer without an edge -/
  | callOther : i.op = .call → (∀ e, e ∈ I.co.targets b → e.type ≠ .call) →
      (∀ r, r ∈ preserved → s'.regs r = s.regs r) → SlotsKept I tame true s s' → OStep I tame b i s s'
  | other : i.op = .other → (∀ r, HReg.gpr r ∉ i.written → s'.regs r = s.regs r) →
      SlotsKept I tame i.writesMemory s s' → OStep I tame b i s s'

/-- Control may go from one instruction to another within the function. -/
inductive HFlow (I : HeapIn) : HNode → HNode → Prop
  | next {b k} : b ∈ I.co.blocks I.f → k + 1 < (I.insns b).length → HFlow I (b, k) (b, k + 1)
  | edge {b e} : b ∈ I.co.blocks I.f → e ∈ I.co.targets b → e.interproc = false →
      e.type ≠ .catch → e.trg ∈ I.co.blocks I.f → HFlow I (b, (I.insns b).length - 1) (e.trg, 0)

/-- The instruction of a context. -/
def OStepAt (I : HeapIn) (tame : Bool) (n : HNode) (s s' : PState) : Prop :=
  ∃ i, I.insn n = some i ∧ OStep I tame n.1 i s s'

/-- A run of the function has come to the state `s` by executing the instruction of `n`. -/
inductive ORun (I : HeapIn) (tame : Bool) : HNode → PState → Prop
  | start {s} : OStepAt I tame (I.co.entry I.f, 0) PState.start s → ORun I tame (I.co.entry I.f, 0) s
  | step {n m s s'} : ORun I tame n s → HFlow I n m → OStepAt I tame m s s' → ORun I tame m s'

/-- A run is about to execute the instruction of `m` in the state `s`. -/
def OBefore (I : HeapIn) (tame : Bool) (m : HNode) (s : PState) : Prop :=
  (m = (I.co.entry I.f, 0) ∧ s = PState.start) ∨ ∃ n, ORun I tame n s ∧ HFlow I n m

end Verif
