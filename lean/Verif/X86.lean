/-!
# The machine

A model of the part of x86-64 that the code emitted by `/repo/src/jit.cc` uses:
general registers, the flags word, the gs base, byte memory over the 64-bit
address space, and exactly the instructions which appear there
(`push pop pushfq popfq mov lea add sub cmp je jne jmp`, labels, and the embedded
byte `0x62` at `/repo/src/jit.cc:274-275, 331-332`).

Simplifications: no page faults; `popfq` restores the pushed word unchanged;
`add`/`sub`/`cmp` reset the system bits of the flags word.
-/

namespace Verif

/-- 64-bit machine words. -/
abbrev W := BitVec 64

/-- General purpose registers (asmjit `x86::Gp`, used at `/repo/src/jit.cc:18-24`). -/
inductive Reg
  | rax | rbx | rcx | rdx | rsp | rbp | rsi | rdi
  | r8 | r9 | r10 | r11 | r12 | r13 | r14 | r15
  deriving DecidableEq, Repr

/-- Byte-addressed memory. -/
abbrev Mem := W → BitVec 8

/-- Little-endian 8-byte load. -/
def Mem.read64 (m : Mem) (a : W) : W :=
  m (a + 7) ++ m (a + 6) ++ m (a + 5) ++ m (a + 4) ++
    m (a + 3) ++ m (a + 2) ++ m (a + 1) ++ m a

/-- Little-endian 4-byte load. -/
def Mem.read32 (m : Mem) (a : W) : BitVec 32 :=
  m (a + 3) ++ m (a + 2) ++ m (a + 1) ++ m a

/-- Little-endian 8-byte store. -/
def Mem.write64 (m : Mem) (a v : W) : Mem := fun x =>
  if (x - a).toNat < 8 then v.extractLsb' (8 * (x - a).toNat) 8 else m x

/-- Machine state. -/
structure State where
  regs : Reg → W
  flags : W
  gs : W
  mem : Mem

/-- Write a register. -/
def State.set (s : State) (r : Reg) (v : W) : State :=
  { s with regs := fun x => if x = r then v else s.regs x }

/-- Labels of the emitted snippets (`newLabel` at `/repo/src/jit.cc:236-238,
283-286, 460`); every snippet binds each of them at most once. -/
inductive Label
  | error | done | loop | unwind | success
  deriving DecidableEq, Repr

/-- Emitted instructions. -/
inductive Instr
  /-- `push r` -/
  | push (r : Reg)
  /-- `pop r` -/
  | pop (r : Reg)
  | pushfq
  | popfq
  /-- `mov r, [b + d]` -/
  | load (r b : Reg) (d : Int)
  /-- `mov [b + d], r` -/
  | store (b : Reg) (d : Int) (r : Reg)
  /-- `mov r, gs:[d]` -/
  | loadGs (r : Reg) (d : Int)
  /-- `mov gs:[d], r` -/
  | storeGs (d : Int) (r : Reg)
  /-- `lea r, [b + d]` -/
  | lea (r b : Reg) (d : Int)
  /-- `add qword gs:[d], i` -/
  | addGs (d i : Int)
  /-- `sub qword gs:[d], i` -/
  | subGs (d i : Int)
  /-- `sub r, i` -/
  | subImm (r : Reg) (i : Int)
  /-- `cmp r, [b + d]` -/
  | cmpMem (r b : Reg) (d : Int)
  /-- `cmp dword [b], i` -/
  | cmpDword (b : Reg) (i : Int)
  | je (l : Label)
  | jne (l : Label)
  | jmp (l : Label)
  /-- `bind l` -/
  | bind (l : Label)
  /-- embedded byte `0x62`, executed as an illegal instruction -/
  | illegal
  deriving DecidableEq, Repr

/-- A piece of code. -/
abbrev Code := List Instr

/-- Flag word with the given status bits: CF (0), PF (2), AF (4), ZF (6), SF (7),
OF (11); reserved bit 1 is set. -/
def mkFlags (cf pf af zf sf of : Bool) : W :=
  BitVec.ofNat 64 (2 + cf.toNat + 4 * pf.toNat + 16 * af.toNat + 64 * zf.toNat +
    128 * sf.toNat + 2048 * of.toNat)

/-- Even parity of the low byte (PF). -/
def parity {n : Nat} (x : BitVec n) : Bool :=
  !(x.getLsbD 0 ^^ x.getLsbD 1 ^^ x.getLsbD 2 ^^ x.getLsbD 3 ^^
    x.getLsbD 4 ^^ x.getLsbD 5 ^^ x.getLsbD 6 ^^ x.getLsbD 7)

/-- Status flags after comparing `a` with `b` (computing `a - b`). -/
def cmpFlags {n : Nat} (a b : BitVec n) : W :=
  mkFlags (decide (a.toNat < b.toNat)) (parity (a - b))
    (decide (a.toNat % 16 < b.toNat % 16)) (decide (a = b)) (a - b).msb
    (a.msb != b.msb && (a - b).msb != a.msb)

/-- Status flags after computing `a + b`. -/
def addFlags {n : Nat} (a b : BitVec n) : W :=
  mkFlags (decide ((a + b).toNat < a.toNat)) (parity (a + b))
    (decide (16 ≤ a.toNat % 16 + b.toNat % 16)) (decide (a + b = 0)) (a + b).msb
    (a.msb == b.msb && (a + b).msb != a.msb)

/-- The zero flag. -/
def State.zf (s : State) : Bool := s.flags.getLsbD 6

/-- Address `b + d`. -/
def State.ea (s : State) (b : Reg) (d : Int) : W := s.regs b + BitVec.ofInt 64 d

/-- Address `gs:[d]`. -/
def State.gsa (s : State) (d : Int) : W := s.gs + BitVec.ofInt 64 d

/-- Result of one instruction. -/
inductive Step
  | next (s : State)
  | goto (l : Label) (s : State)
  | trap (s : State)

/-- Push the word `v`. -/
def State.pushW (s : State) (v : W) : State :=
  let sp := s.regs .rsp - 8
  { s.set .rsp sp with mem := s.mem.write64 sp v }

/-- Semantics of one instruction. -/
def exec : Instr → State → Step
  | .push r, s => .next (s.pushW (s.regs r))
  | .pop r, s =>
    .next ((s.set .rsp (s.regs .rsp + 8)).set r (s.mem.read64 (s.regs .rsp)))
  | .pushfq, s => .next (s.pushW s.flags)
  | .popfq, s =>
    .next { s.set .rsp (s.regs .rsp + 8) with flags := s.mem.read64 (s.regs .rsp) }
  | .load r b d, s => .next (s.set r (s.mem.read64 (s.ea b d)))
  | .store b d r, s => .next { s with mem := s.mem.write64 (s.ea b d) (s.regs r) }
  | .loadGs r d, s => .next (s.set r (s.mem.read64 (s.gsa d)))
  | .storeGs d r, s => .next { s with mem := s.mem.write64 (s.gsa d) (s.regs r) }
  | .lea r b d, s => .next (s.set r (s.ea b d))
  | .addGs d i, s =>
    let v := s.mem.read64 (s.gsa d)
    .next { s with mem := s.mem.write64 (s.gsa d) (v + BitVec.ofInt 64 i),
                   flags := addFlags v (BitVec.ofInt 64 i) }
  | .subGs d i, s =>
    let v := s.mem.read64 (s.gsa d)
    .next { s with mem := s.mem.write64 (s.gsa d) (v - BitVec.ofInt 64 i),
                   flags := cmpFlags v (BitVec.ofInt 64 i) }
  | .subImm r i, s =>
    .next { s.set r (s.regs r - BitVec.ofInt 64 i) with
              flags := cmpFlags (s.regs r) (BitVec.ofInt 64 i) }
  | .cmpMem r b d, s =>
    .next { s with flags := cmpFlags (s.regs r) (s.mem.read64 (s.ea b d)) }
  | .cmpDword b i, s =>
    .next { s with flags := cmpFlags (s.mem.read32 (s.regs b)) (BitVec.ofInt 32 i) }
  | .je l, s => if s.zf then .goto l s else .next s
  | .jne l, s => if s.zf then .next s else .goto l s
  | .jmp l, s => .goto l s
  | .bind _, s => .next s
  | .illegal, s => .trap s

/-- Is this instruction the binding of label `l`? -/
def Instr.binds (l : Label) : Instr → Bool
  | .bind l' => l == l'
  | _ => false

/-- The code from the binding of `l` on. -/
def target (l : Label) : Code → Option Code
  | [] => none
  | i :: k => if i.binds l then some k else target l k

/-- How a snippet ends: it falls through, it traps (SIGILL), or it jumps to a
label that does not exist. -/
inductive Outcome
  | exit (s : State)
  | trap (s : State)
  | stuck

/-- Run at most `n` steps of the snippet `w` from its suffix `k`. -/
def run (w : Code) : Nat → Code → State → Option Outcome
  | 0, _, _ => none
  | _ + 1, [], s => some (.exit s)
  | n + 1, i :: k, s =>
    match exec i s with
    | .next s' => run w n k s'
    | .goto l s' =>
      match target l w with
      | some k' => run w n k' s'
      | none => some .stuck
    | .trap s' => some (.trap s')

/-- The snippet, started at its beginning in `s`, falls through in state `s'`. -/
def Exits (w : Code) (s s' : State) : Prop := ∃ n, run w n w s = some (.exit s')

/-- The snippet, started at its beginning in `s`, raises SIGILL. -/
def Traps (w : Code) (s : State) : Prop := ∃ n s', run w n w s = some (.trap s')

end Verif
