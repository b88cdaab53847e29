import Verif.Evex

/-!
# Machine code (specification and model of C114, C115)

`StackOpSnippet::generate` (`/repo/src/instrument.cc:93-108`) lets `jit.cc` emit a snippet with an
assembler, places the bytes into a buffer of the tool and copies them from there into Dyninst's buffer,
which ends up at an address that is not known then.

The first part of this file is a specification: what a processor does with bytes, as far as they can
stand in snippets (Intel SDM volume 2, chapter 2 for prefixes, ModRM and SIB bytes, and the pages of the
instructions).  Code is in memory which cannot be written, so that it is not part of the state.

The second part models the assembler: the encodings, and where jumps go.
-/

namespace Verif

/-! ## Decoding -/

/-- The fields of a ModRM or SIB byte: bits 7-6, 5-3 and 2-0. -/
def hi2 (b : Byte) : Nat := b.toNat / 64
def mid3 (b : Byte) : Nat := b.toNat / 8 % 8
def lo3 (b : Byte) : Nat := b.toNat % 8

/-- A REX prefix. -/
structure Rex where
  w : Bool := false
  r : Bool := false
  x : Bool := false
  b : Bool := false
  deriving DecidableEq, Repr

/-- The fields of the byte `0100WRXB`. -/
def Rex.of (b : Byte) : Rex := ⟨b.getLsbD 3, b.getLsbD 2, b.getLsbD 1, b.getLsbD 0⟩

/-- The registers in the order of their numbers. -/
def regTable : List Reg :=
  [.rax, .rcx, .rdx, .rbx, .rsp, .rbp, .rsi, .rdi, .r8, .r9, .r10, .r11, .r12, .r13, .r14, .r15]

/-- The register with the number `n < 8`, or `n + 8` with an extension bit. -/
def regAt (ext : Bool) (n : Nat) : Reg := regTable.getD (n % 8 + if ext then 8 else 0) .rax

/-- A signed displacement or immediate of one byte. -/
def imm8 : List Byte → Option Int
  | a :: _ => some a.toInt
  | [] => none

/-- A signed displacement or immediate of four bytes, the lowest first. -/
def imm32 : List Byte → Option Int
  | a :: b :: c :: d :: _ => some (d ++ c ++ b ++ a).toInt
  | _ => none

/-- The operand which ModRM and SIB describe: a register, or memory at a base register, if any, and a
displacement. -/
inductive Operand
  | reg (r : Reg)
  | mem (base : Option Reg) (d : Int)
  deriving DecidableEq, Repr

/-- The base register of a memory operand, from ModRM and what stands behind it, and how many bytes of
SIB there are.  `none`: addresses with an index register or relative to `rip`, which are not covered. -/
def baseOf (rex : Rex) (md rm : Nat) (rest : List Byte) : Option (Option Reg × Nat) :=
  if rm = 4 then
    match rest with
    | [] => none
    | sib :: _ =>
      if mid3 sib = 4 ∧ rex.x = false then
        if lo3 sib = 5 ∧ md = 0 then some (none, 1) else some (some (regAt rex.b (lo3 sib)), 1)
      else none
  else if rm = 5 ∧ md = 0 then none
  else some (some (regAt rex.b rm), 0)

/-- The displacement, and how many bytes it takes. -/
def dispOf (md : Nat) (base : Option Reg) (rest : List Byte) : Option (Int × Nat) :=
  if md = 1 then (imm8 rest).map (·, 1)
  else if md = 2 ∨ base = none then (imm32 rest).map (·, 4)
  else some (0, 0)

/-- ModRM and what belongs to it: the field `reg`, the operand, and how many bytes they take. -/
def operandOf (rex : Rex) : List Byte → Option (Nat × Operand × Nat)
  | [] => none
  | m :: rest =>
    if hi2 m = 3 then some (mid3 m, .reg (regAt rex.b (lo3 m)), 1)
    else do
      let (base, n) ← baseOf rex (hi2 m) (lo3 m) rest
      let (d, n') ← dispOf (hi2 m) base (rest.drop n)
      return (mid3 m, .mem base d, 1 + n + n')

/-- What stands at an address. -/
inductive Decoded
  /-- an instruction after which the next one follows -/
  | plain (i : Instr)
  | je (rel : Int)
  | jne (rel : Int)
  | jmp (rel : Int)
  /-- the byte `0x62`, see `evex` -/
  | evex
  deriving DecidableEq, Repr

/-- Instructions with the operands `r64, m64` or `m64, r64`, or `lea`. -/
def regMem (gs : Bool) (op : Nat) (r : Reg) : Operand → Option Instr
  | .mem (some b) d =>
    if gs then none
    else if op = 0x8B then some (.load r b d)
    else if op = 0x89 then some (.store b d r)
    else if op = 0x8D then some (.lea r b d)
    else if op = 0x3B then some (.cmpMem r b d)
    else none
  | .mem none d =>
    if gs then
      if op = 0x8B then some (.loadGs r d)
      else if op = 0x89 then some (.storeGs d r)
      else none
    else none
  | .reg _ => none

/-- The group `81`, `83`: instructions with an immediate. -/
def group1 (gs w : Bool) (ext : Nat) (i : Int) : Operand → Option Instr
  | .reg r => if ext = 5 ∧ w then some (.subImm r i) else none
  | .mem none d =>
    if gs ∧ w then
      if ext = 0 then some (.addGs d i)
      else if ext = 5 then some (.subGs d i)
      else none
    else none
  | .mem (some b) d => if ext = 7 ∧ d = 0 ∧ w = false ∧ gs = false then some (.cmpDword b i) else none

/-- An instruction behind its prefixes: `op` is the opcode.  `plain`: there are no prefixes. -/
def decodeOp (plain gs : Bool) (rex : Rex) (op : Nat) (rest : List Byte) : Option (Decoded × Nat) :=
  if op = 0x8B ∨ op = 0x89 ∨ op = 0x8D ∨ op = 0x3B then
    if rex.w then do
      let (reg, x, n) ← operandOf rex rest
      let i ← regMem gs op (regAt rex.r reg) x
      return (.plain i, n)
    else none
  else if op = 0x83 then do
    let (ext, x, n) ← operandOf rex rest
    let v ← imm8 (rest.drop n)
    let i ← group1 gs rex.w ext v x
    return (.plain i, n + 1)
  else if op = 0x81 then do
    let (ext, x, n) ← operandOf rex rest
    let v ← imm32 (rest.drop n)
    let i ← group1 gs rex.w ext v x
    return (.plain i, n + 4)
  else if gs then none
  else if op / 8 = 10 then some (.plain (.push (regAt rex.b (op % 8))), 0)
  else if op / 8 = 11 then some (.plain (.pop (regAt rex.b (op % 8))), 0)
  else if plain = false then none
  else if op = 0x9C then some (.plain .pushfq, 0)
  else if op = 0x9D then some (.plain .popfq, 0)
  else if op = 0x74 then (imm8 rest).map (fun r => (.je r, 1))
  else if op = 0x75 then (imm8 rest).map (fun r => (.jne r, 1))
  else if op = 0xEB then (imm8 rest).map (fun r => (.jmp r, 1))
  else if op = 0xE9 then (imm32 rest).map (fun r => (.jmp r, 4))
  else if op = 0x62 then some (.evex, 0)
  else if op = 0x0F then
    match rest with
    | c :: rest' =>
      if c.toNat = 0x84 then (imm32 rest').map (fun r => (.je r, 5))
      else if c.toNat = 0x85 then (imm32 rest').map (fun r => (.jne r, 5))
      else none
    | [] => none
  else none

/-- Behind the prefix `65`, if there is one: a REX prefix, if there is one, and the instruction. -/
def decodeRex (gs : Bool) : List Byte → Option (Decoded × Nat)
  | [] => none
  | b :: t =>
    if b.toNat / 16 = 4 then
      match t with
      | [] => none
      | op :: rest => (decodeOp false gs (Rex.of b) op.toNat rest).map fun (d, n) => (d, n + 2)
    else (decodeOp (!gs) gs {} b.toNat t).map fun (d, n) => (d, n + 1)

/-- The instruction with which the bytes begin, and how many bytes it takes.  `none`: none, or one that
is not covered. -/
def decode : List Byte → Option (Decoded × Nat)
  | [] => none
  | b :: t =>
    if b.toNat = 0x65 then (decodeRex true t).map fun (d, n) => (d, n + 1)
    else decodeRex false (b :: t)

/-! ## Executing -/

/-- The bytes which an instruction at `a` may consist of; none is longer than 15 bytes. -/
def window (text : W → Byte) (a : W) : List Byte :=
  (List.range 15).map fun i => text (a + BitVec.ofNat 64 i)

/-- What one instruction leads to. -/
inductive Executed
  | next (rip : W) (s : State)
  /-- #UD: the process gets SIGILL -/
  | sigill (s : State)
  /-- not covered by the specification -/
  | unlisted

/-- One instruction at `a`.  `avx`: the processor has AVX-512. -/
def executeAt (avx : Bool) (text : W → Byte) (a : W) (s : State) : Executed :=
  match decode (window text a) with
  | some (.plain i, n) =>
    match exec i s with
    | .next s' => .next (a + BitVec.ofNat 64 n) s'
    | _ => .unlisted
  | some (.je rel, n) =>
    .next (a + BitVec.ofNat 64 n + if s.zf then BitVec.ofInt 64 rel else 0) s
  | some (.jne rel, n) =>
    .next (a + BitVec.ofNat 64 n + if s.zf then 0 else BitVec.ofInt 64 rel) s
  | some (.jmp rel, n) => .next (a + BitVec.ofNat 64 n + BitVec.ofInt 64 rel) s
  | some (.evex, _) =>
    if avx then
      match evex fun i => text (a + BitVec.ofNat 64 (1 + i)) with
      | .undefined => .sigill s
      | .vector n => .next (a + BitVec.ofNat 64 (1 + n)) s
      | .unlisted => .unlisted
    else .sigill s
  | none => .unlisted

/-- The processor gets from `a` and `s` to `a'` and `s'`; all instructions on the way begin at addresses
in `P`. -/
inductive Executes (avx : Bool) (text : W → Byte) (P : W → Prop) : W → State → W → State → Prop
  | refl {a s} : Executes avx text P a s a s
  | step {a s a1 s1 a2 s2} : P a → executeAt avx text a s = .next a1 s1 →
      Executes avx text P a1 s1 a2 s2 → Executes avx text P a s a2 s2

/-- The bytes `bs` stand at `a`. -/
def Stands (text : W → Byte) (a : W) (bs : List Byte) : Prop :=
  ∀ i (h : i < bs.length), text (a + BitVec.ofNat 64 i) = bs[i]

/-- The addresses of `len` bytes at `a`. -/
def Inside (a : W) (len : Nat) (x : W) : Prop := ∃ p, p < len ∧ x = a + BitVec.ofNat 64 p

/-- Started in `s` at the first of the `len` bytes at `a`, the processor executes instructions which begin
there, and comes to the byte behind them in `s'`. -/
def Leaves (avx : Bool) (text : W → Byte) (a : W) (len : Nat) (s s' : State) : Prop :=
  Executes avx text (Inside a len) a s (a + BitVec.ofNat 64 len) s'

/-- The same, but the process gets SIGILL before. -/
def DiesIn (avx : Bool) (text : W → Byte) (a : W) (len : Nat) (s : State) : Prop :=
  ∃ x s', Inside a len x ∧ Executes avx text (Inside a len) a s x s' ∧ executeAt avx text x s' = .sigill s'

/-! ## The assembler -/

/-- Is the number representable as a signed number of 8 or of 32 bits? -/
def fits8 (d : Int) : Bool := decide (-128 ≤ d ∧ d < 128)
def fits32 (d : Int) : Bool := decide (-2147483648 ≤ d ∧ d < 2147483648)

/-- A byte with the fields `hi2`, `mid3`, `lo3`. -/
def fieldByte (h m l : Nat) : Byte := BitVec.ofNat 8 (64 * h + 8 * m + l)

/-- A REX prefix. -/
def rexByte (w : Bool) (r b : Nat) : Byte :=
  BitVec.ofNat 8 (0x40 + (if w then 8 else 0) + 4 * (r / 8) + b / 8)

/-- ModRM, SIB and displacement for `[b + d]`, as short as possible: `rsp` and `r12` need a SIB byte, `rbp`
and `r13` a displacement. -/
def memBytes (reg : Nat) (b : Reg) (d : Int) : List Byte :=
  let m := b.num % 8
  let sib : List Byte := if m = 4 then [0x24] else []
  if d = 0 ∧ m ≠ 5 then fieldByte 0 (reg % 8) m :: sib
  else if fits8 d then fieldByte 1 (reg % 8) m :: sib ++ [BitVec.ofInt 8 d]
  else fieldByte 2 (reg % 8) m :: sib ++ disp32 d

/-- ModRM, SIB and displacement for `gs:[d]`. -/
def absBytes (reg : Nat) (d : Int) : List Byte :=
  fieldByte 0 (reg % 8) 4 :: 0x25 :: disp32 d

/-- An instruction with the operands `r64, m64`. -/
def rmBytes (op : Byte) (r b : Reg) (d : Int) : Option (List Byte) :=
  if fits32 d then some (rexByte true r.num b.num :: op :: memBytes r.num b d) else none

/-- The opcode and what comes behind the operand, for an instruction of the group `81`, `83`. -/
def immBytes (i : Int) : Byte × List Byte :=
  if fits8 i then (0x83, [BitVec.ofInt 8 i]) else (0x81, disp32 i)

/-- The encodings of all instructions but jumps, labels and the embedded byte; `none` if asmjit reports an
error, because an operand is too large.  The calls are those of `/repo/src/jit.cc:92-487`; asmjit's choice
of encodings, `cmp` and `sub` with immediates of 32 bits and `rax` excepted, for which it has a shorter one. -/
def Instr.encode : Instr → Option (List Byte)
  | .push r => some (if r.num < 8 then [BitVec.ofNat 8 (0x50 + r.num)]
      else [0x41, BitVec.ofNat 8 (0x50 + (r.num - 8))])
  | .pop r => some (popBytes r)
  | .pushfq => some [0x9C]
  | .popfq => some [0x9D]
  | .load r b d => rmBytes 0x8B r b d
  | .store b d r => rmBytes 0x89 r b d
  | .lea r b d => rmBytes 0x8D r b d
  | .cmpMem r b d => rmBytes 0x3B r b d
  | .loadGs r d => if fits32 d then some (0x65 :: rexByte true r.num 0 :: 0x8B :: absBytes r.num d) else none
  | .storeGs d r => if fits32 d then some (0x65 :: rexByte true r.num 0 :: 0x89 :: absBytes r.num d) else none
  | .addGs d i => if fits32 d ∧ fits32 i then
      some (0x65 :: rexByte true 0 0 :: (immBytes i).1 :: absBytes 0 d ++ (immBytes i).2) else none
  | .subGs d i => if fits32 d ∧ fits32 i then
      some (0x65 :: rexByte true 0 0 :: (immBytes i).1 :: absBytes 5 d ++ (immBytes i).2) else none
  | .subImm r i => if fits32 i then
      some (rexByte true 0 r.num :: (immBytes i).1 :: fieldByte 3 5 (r.num % 8) :: (immBytes i).2) else none
  | .cmpDword b i => if fits32 i then
      some ((if b.num < 8 then [] else [rexByte false 0 b.num]) ++
        ((immBytes i).1 :: memBytes 7 b 0) ++ (immBytes i).2) else none
  | _ => none

/-- The opcodes of a jump: the short one, and the long one. -/
def Instr.jump : Instr → Option (Label × Byte × List Byte)
  | .je l => some (l, 0x74, [0x0F, 0x84])
  | .jne l => some (l, 0x75, [0x0F, 0x85])
  | .jmp l => some (l, 0xEB, [0xE9])
  | _ => none

/-- A jump at `pos` to the label at `q`, if this is known already and near: the short form.  asmjit takes
the long one for labels which are not bound yet. -/
def shortTo (pos : Nat) (q : Option Nat) : Option Int :=
  q.bind fun q => if fits8 (q - (pos + 2)) then some (q - (pos + 2)) else none

/-- How many bytes an instruction at `pos` takes.  `known`: the labels bound so far. -/
def sizeAt (known : Label → Option Nat) (pos : Nat) (i : Instr) : Option Nat :=
  match i.jump with
  | some (l, _, long) => some (if (shortTo pos (known l)).isSome then 2 else long.length + 4)
  | none =>
    match i with
    | .bind _ => some 0
    | .illegal => some 1
    | i => i.encode.map List.length

/-- The labels bound after an instruction at `pos`.  A label cannot be bound twice. -/
def boundBy (known : Label → Option Nat) (pos : Nat) : Instr → Option (Label → Option Nat)
  | .bind l => if known l = none then some fun l' => if l' = l then some pos else known l' else none
  | _ => some known

/-- Where the labels are in the end. -/
def labelsOf (known : Label → Option Nat) (pos : Nat) : Code → Option (Label → Option Nat)
  | [] => some known
  | i :: k => do labelsOf (← boundBy known pos i) (pos + (← sizeAt known pos i)) k

/-- The bytes of an instruction at `pos`, when the labels are where `final` says.  `none`: an error. -/
def bytesAt (final known : Label → Option Nat) (pos : Nat) (i : Instr) : Option (List Byte) :=
  match i.jump with
  | some (l, short, long) =>
    match shortTo pos (known l) with
    | some rel => some [short, BitVec.ofInt 8 rel]
    | none => do
      let q ← final l
      let rel : Int := q - (pos + (long.length + 4))
      if fits32 rel then some (long ++ disp32 rel) else none
  | none =>
    match i with
    | .bind _ => some []
    | .illegal => some [0x62]
    | i => i.encode

/-- The bytes of a piece of code. -/
def bytesFrom (final known : Label → Option Nat) (pos : Nat) : Code → Option (List Byte)
  | [] => some []
  | i :: k => do
    let bs ← bytesAt final known pos i
    return bs ++ (← bytesFrom final (← boundBy known pos i) (pos + bs.length) k)

/-- The bytes of a snippet; `none` if asmjit reports an error.  The error handler only prints it
(`/repo/src/assembler.cc:5-12`), so the code would be inserted without the instruction. -/
def assemble (code : Code) : Option (List Byte) := do
  let final ← labelsOf (fun _ => none) 0 code
  bytesFrom final (fun _ => none) 0 code

/-- `StackOpSnippet::generate`, `/repo/src/instrument.cc:93-108`, when the buffer is at `base`: all that
`relocateToBase` could change are absolute addresses, of which there are none. -/
def generate (_base : W) (code : Code) : Option (List Byte) := assemble code

end Verif
