import Verif.Jit

/-!
# The embedded byte

A check which finds no matching entry reaches the byte `0x62` which `ValidateRa` and
`ValidateRaAndFrame` embed (`/repo/src/jit.cc:272-275, 329-332`; "cause a SIGILL").  In `X86`
this byte is an instruction of its own (`Instr.illegal`) which traps.  For the processor it
is the first byte of an EVEX prefix, so what happens depends on the bytes behind it: those of
the rest of the snippet and then whatever Dyninst places behind the snippet.

The first part of this file is a specification: what a processor with AVX-512 does with
`0x62` and the bytes behind it (Intel SDM volume 2, section 2.7 and the pages of the
instructions of the row `0F 58` - `0F 5F`), as far as this is needed here.  A processor without
AVX-512 raises #UD on all of them.  The second part gives the encodings of the
instructions which stand behind the byte.
-/

namespace Verif

/-- A byte of machine code. -/
abbrev Byte := BitVec 8

/-! ## What the processor does -/

/-- What `0x62` and the bytes behind it are. -/
inductive Evex where
  /-- no instruction: #UD, the process gets SIGILL -/
  | undefined
  /-- an instruction on vector registers; it takes `n` bytes behind `0x62` -/
  | vector (n : Nat)
  /-- not covered by this specification, as all instructions with a memory operand -/
  | unlisted
  deriving DecidableEq, Repr

/-- The instructions `0F 58` - `0F 5F` with EVEX prefix: `none` if there is none with this
mandatory prefix (0: none, 1: 66, 2: F3, 3: F2), this W and these low three bits of the opcode,
otherwise whether the instruction uses the operand `vvvv`.

58 add, 59 multiply, 5C subtract, 5D minimum, 5E divide, 5F maximum exist for packed single
(no prefix, W0), packed double (66, W1), single (F3, W0) and double (F2, W1); 5A converts between
single and double, with `vvvv` only for scalars; 5B converts integers. -/
def arithRow (pp : BitVec 2) (w : Bool) (op : BitVec 3) : Option Bool :=
  if op = 3 then
    if pp = 0 then some false
    else if (pp = 1 ∨ pp = 2) ∧ w = false then some false else none
  else if w = decide (pp = 1 ∨ pp = 3) then some (decide (op ≠ 2 ∨ pp = 2 ∨ pp = 3))
  else none

/-- `0x62` followed by the bytes `c 0`, `c 1`, … -/
def evex (c : Nat → Byte) : Evex :=
  if (c 0).getLsbD 3 then .undefined
  else if (c 0).extractLsb' 0 3 = 0 then .undefined
  else if (c 1).getLsbD 2 = false then .undefined
  else if (c 0).extractLsb' 0 3 = 1 ∧ (c 3).extractLsb' 3 5 = 11 then
    match arithRow ((c 1).extractLsb' 0 2) ((c 1).getLsbD 7) ((c 3).extractLsb' 0 3) with
    | none => .undefined
    | some nds =>
      if nds = false ∧ ¬ ((c 1).extractLsb' 3 4 = 15 ∧ (c 2).getLsbD 3) then .undefined
      else if (c 2).getLsbD 7 ∧ (c 2).extractLsb' 0 3 = 0 then .undefined
      else if (c 4).extractLsb' 6 2 ≠ 3 then .unlisted
      else if (c 2).getLsbD 4 = false ∧ (c 2).extractLsb' 5 2 = 3 then .undefined
      else .vector 5
  else .unlisted

/-- The bytes `bs`, followed by `rest`. -/
def codeStream (bs : List Byte) (rest : Nat → Byte) : Nat → Byte :=
  fun i => if h : i < bs.length then bs[i] else rest (i - bs.length)

/-! ## Encodings -/

/-- Number of a register in encodings. -/
def Reg.num : Reg → Nat
  | .rax => 0 | .rcx => 1 | .rdx => 2 | .rbx => 3 | .rsp => 4 | .rbp => 5 | .rsi => 6 | .rdi => 7
  | .r8 => 8 | .r9 => 9 | .r10 => 10 | .r11 => 11 | .r12 => 12 | .r13 => 13 | .r14 => 14
  | .r15 => 15

/-- `pop r`: opcode `58 + r`, with a REX prefix for `r8` - `r15`. -/
def popBytes (r : Reg) : List Byte :=
  if r.num < 8 then [BitVec.ofNat 8 (0x58 + r.num)]
  else [0x41, BitVec.ofNat 8 (0x58 + (r.num - 8))]

/-- The four bytes of a displacement. -/
def disp32 (d : Int) : List Byte :=
  let v := BitVec.ofInt 32 d
  [v.extractLsb' 0 8, v.extractLsb' 8 8, v.extractLsb' 16 8, v.extractLsb' 24 8]

/-- Encodings of the instructions which are emitted behind the byte; `none` for the others. -/
def Instr.bytes : Instr → Option (List Byte)
  | .pop r => some (popBytes r)
  | .popfq => some [0x9D]
  | .bind _ => some []
  | .loadGs r d => some ([0x65, if r.num < 8 then 0x48 else 0x4C, 0x8B,
      BitVec.ofNat 8 (4 + 8 * (r.num % 8)), 0x25] ++ disp32 d)
  | _ => none

/-- The bytes of a piece of code. -/
def codeBytes : Code → Option (List Byte)
  | [] => some []
  | i :: k => do return (← i.bytes) ++ (← codeBytes k)

/-- The part of a snippet behind the embedded byte.  `/repo/src/jit.cc:275-277`. -/
def behind : Code → Option Code
  | [] => none
  | .illegal :: k => some k
  | _ :: k => behind k

/-- What stands at the embedded byte of a snippet, if `rest` stands behind the snippet.
`/repo/src/jit.cc:274-277`. -/
def atByte (code : Code) (rest : Nat → Byte) : Option Evex := do
  return evex (codeStream (← codeBytes (← behind code)) rest)

/-! ## How a failing check ends -/

/-- Started in `s`, the snippet reaches the embedded byte and the process gets SIGILL.
`/repo/src/jit.cc:272-277`. -/
def Sigill (code : Code) (rest : Nat → Byte) (s : State) : Prop :=
  ∃ n s', run code n code s = some (.trap s') ∧ atByte code rest = some .undefined

/-- Started in `s`, the snippet reaches the embedded byte, which is the first byte of an
instruction on vector registers.  The program goes on in `s'`, `n` bytes behind the embedded
byte.  `/repo/src/jit.cc:272-277`. -/
def SlipsTo (code : Code) (rest : Nat → Byte) (s s' : State) (n : Nat) : Prop :=
  (∃ k, run code k code s = some (.trap s')) ∧ atByte code rest = some (.vector n)

end Verif
