import Verif.BlockLive

/-!
# Specification: instructions of the program and their declared effects

The behaviour of a program instruction is an arbitrary function on machine states.  `Lawful`
says that it agrees with what the decoder declares about it; it does not mention any
analysis.
-/

namespace Verif

/-- The two states agree except on the registers in `X`, on the flags if `F`, and on the
bytes in `A`. -/
structure Near (X : Reg → Prop) (F : Prop) (A : W → Prop) (s t : State) : Prop where
  regs : ∀ r, ¬ X r → t.regs r = s.regs r
  flags : ¬ F → t.flags = s.flags
  gs : t.gs = s.gs
  mem : ∀ a, ¬ A a → t.mem a = s.mem a

/-- Behaviour of one instruction: its effect, and the bytes whose contents it depends on. -/
structure Sem where
  ex : State → State
  touch : State → W → Prop

/-- The behaviour agrees with the declared facts. -/
structure Lawful (i : BInsn) (m : Sem) : Prop where
  /-- registers not written in any width keep their values -/
  keep : ∀ s r, (∀ n, RegRef.gpr r n ∉ i.writes) → (m.ex s).regs r = s.regs r
  /-- without a memory write, memory stays -/
  mem : i.writesMemory = false → ∀ s, (m.ex s).mem = s.mem
  /-- the effect depends only on what is declared read: differences elsewhere stay where they
  are, and disappear from registers written in full -/
  dep : ∀ (X : Reg → Prop) (F : Prop) (A : W → Prop) s t, Near X F A s t →
    (∀ r, X r → ∀ n, RegRef.gpr r n ∉ i.reads) → (F → RegRef.flag ∉ i.reads) →
    (∀ a, m.touch s a → ¬ A a) →
    Near (fun r => X r ∧ RegRef.gpr r 4 ∉ i.writes ∧ RegRef.gpr r 8 ∉ i.writes) F A (m.ex s) (m.ex t)

/-- The instruction is a push of eight bytes. -/
def Push8 (m : Sem) : Prop :=
  ∀ s, (m.ex s).regs .rsp = s.regs .rsp - 8 ∧
    ∀ a, ¬ InRange a (s.regs .rsp - 8) 8 → (m.ex s).mem a = s.mem a

/-- The instruction is a pop of eight bytes into something other than the stack pointer. -/
def Pop8 (m : Sem) : Prop := ∀ s, (m.ex s).regs .rsp = s.regs .rsp + 8

/-- Execution of a sequence. -/
def runSem : List (BInsn × Sem) → State → State
  | [], s => s
  | (_, m) :: rest, s => runSem rest (m.ex s)

theorem runSem_append (l l' : List (BInsn × Sem)) (s : State) :
    runSem (l ++ l') s = runSem l' (runSem l s) := by
  induction l generalizing s with
  | nil => rfl
  | cons p l ih => exact ih _

end Verif
