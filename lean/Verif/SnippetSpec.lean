import Verif.X86Lemmas

/-!
# Specification of the snippets

What a push or a check is supposed to do, stated on machine states only: which
word is recorded, where the shadow pointer is left, and what must not change.
Nothing here refers to the emitted code or to the emitter.
-/

namespace Verif

/-- Dyninst's name of a register. -/
def Reg.name : Reg → String
  | .rax => "x86_64::rax" | .rbx => "x86_64::rbx" | .rcx => "x86_64::rcx"
  | .rdx => "x86_64::rdx" | .rsp => "x86_64::rsp" | .rbp => "x86_64::rbp"
  | .rsi => "x86_64::rsi" | .rdi => "x86_64::rdi" | .r8 => "x86_64::r8"
  | .r9 => "x86_64::r9" | .r10 => "x86_64::r10" | .r11 => "x86_64::r11"
  | .r12 => "x86_64::r12" | .r13 => "x86_64::r13" | .r14 => "x86_64::r14"
  | .r15 => "x86_64::r15"

/-- `n` names a general register other than the stack pointer. -/
def KnownName (n : String) : Prop := ∃ r : Reg, r ≠ .rsp ∧ r.name = n

/-- The shadow pointer of the thread: the word at gs:0. -/
def State.shadow (s : State) : W := s.mem.read64 s.gs

/-- Every register outside `free`, the stack pointer, the gs base, and all memory
outside the areas `[a, a+n)` listed in `areas` are the same in `s` and `s'`. -/
structure SameExcept (free : Reg → Prop) (areas : List (W × Nat)) (s s' : State) : Prop where
  rsp : s'.regs .rsp = s.regs .rsp
  regs : ∀ r, ¬ free r → s'.regs r = s.regs r
  gs : s'.gs = s.gs
  mem : ∀ x, (∀ p, p ∈ areas → ¬ InRange x p.1 p.2) → s'.mem x = s.mem x

/-- A push which records the word at `R`, may clobber `free` registers and uses `n`
bytes below the stack pointer. -/
structure Pushed (free : Reg → Prop) (R : W) (n : Nat) (s s' : State) : Prop where
  /-- the return address is in the slot which the shadow pointer designated -/
  recorded : s'.mem.read64 s.shadow = s.mem.read64 R
  /-- the shadow pointer moved up by one entry -/
  pointer : s'.shadow = s.shadow + 8
  /-- nothing else changed, -/
  same : SameExcept free
    [(s.shadow, 8), (s.gs, 8), (s.regs .rsp - BitVec.ofNat 64 n, n)] s s'
  /-- not even the flags -/
  flags : s'.flags = s.flags

/-- The four areas a push works with do not overlap: the return address, the shadow
pointer word, the shadow slot, and the `n` bytes below the stack pointer. -/
structure PushSep (R : W) (n : Nat) (s : State) : Prop where
  slot_gs : Sep s.shadow 8 s.gs 8
  ret_save : Sep R 8 (s.regs .rsp - BitVec.ofNat 64 n) n
  slot_save : Sep s.shadow 8 (s.regs .rsp - BitVec.ofNat 64 n) n
  gs_save : Sep s.gs 8 (s.regs .rsp - BitVec.ofNat 64 n) n

/-- Entry number `i` of the shadow stack, counted from the top. -/
def State.entry (s : State) (i : Nat) : W :=
  s.mem.read64 (s.shadow - BitVec.ofNat 64 (8 * (i + 1)))

/-- The shadow stack holds the entries `l`, topmost first, above a zero guard word. -/
structure State.Holds (s : State) (l : List W) : Prop where
  entries : ∀ i (h : i < l.length), s.entry i = l[i]
  guard : s.entry l.length = 0#64

/-- A check which found entry number `i`. -/
structure Checked (free : Reg → Prop) (n i : Nat) (s s' : State) : Prop where
  /-- the shadow pointer designates the entry found -/
  pointer : s'.shadow = s.shadow - BitVec.ofNat 64 (8 * (i + 1))
  /-- nothing else changed, except the flags -/
  same : SameExcept free [(s.gs, 8), (s.regs .rsp - BitVec.ofNat 64 n, n)] s s'

/-- The areas a check works with do not overlap; `d` is the number of entries it may
look at. -/
structure CheckSep (R : W) (n d : Nat) (s : State) : Prop where
  ret_gs : Sep R 8 s.gs 8
  ret_save : Sep R 8 (s.regs .rsp - BitVec.ofNat 64 n) n
  gs_save : Sep s.gs 8 (s.regs .rsp - BitVec.ofNat 64 n) n
  ent_gs : ∀ i, i < d → Sep (s.shadow - BitVec.ofNat 64 (8 * (i + 1))) 8 s.gs 8
  ent_save : ∀ i, i < d → Sep (s.shadow - BitVec.ofNat 64 (8 * (i + 1))) 8
    (s.regs .rsp - BitVec.ofNat 64 n) n

/-- An entry which the check cannot tell from the guard word. -/
def GuardLike (v : W) : Prop := v.setWidth 32 = 0#32

instance (v : W) : Decidable (GuardLike v) := inferInstanceAs (Decidable (_ = _))

end Verif
