import Verif.PlanMachine
import Verif.Evex

/-!
# Specification: an instrumented program on a processor with AVX-512

As `Verif.PlanMachine`, but a failing check is not taken to end the process: at the embedded byte
the processor looks at the bytes behind it.
-/

namespace Verif

/-- A process, or one in which a failing check was passed over; it goes on somewhere behind the
check. -/
inductive VProc
  | on (p : XProc)
  | slipped (s : State) (acts : List XAct)

/-- One step.  `after f code bs`: behind the snippet `code` of `f` stand the bytes `bs`. -/
inductive VStep (m : ProgSem) (frame : Func → Reg) (snip : Func → Ev → Code → State → W → Prop)
    (after : Func → Code → (Nat → Byte) → Prop) (g : W) : VProc → VProc → Prop
  /-- everything but traps -/
  | step {p q : XProc} : EStep m frame snip g p q → q ≠ .killed → VStep m frame snip after g (.on p) (.on q)
  /-- the byte and what stands behind it is no instruction -/
  | sigill {s s' : State} {a : XAct} {as : List XAct} {ev : Ev} {code : Code} {n : Nat}
      {bs : Nat → Byte} : m.trace a.func (a.done ++ [ev]) → snip a.func ev code s a.at_ →
      Clear g (a :: as) 16 s → HasRoom g s → run code n code s = some (.trap s') →
      after a.func code bs → atByte code bs = some .undefined →
      VStep m frame snip after g (.on (.run s (a :: as))) (.on .killed)
  /-- ... is one -/
  | slip {s s' : State} {a : XAct} {as : List XAct} {ev : Ev} {code : Code} {n : Nat}
      {bs : Nat → Byte} : m.trace a.func (a.done ++ [ev]) → snip a.func ev code s a.at_ →
      Clear g (a :: as) 16 s → HasRoom g s → run code n code s = some (.trap s') →
      after a.func code bs → atByte code bs ≠ some .undefined →
      VStep m frame snip after g (.on (.run s (a :: as))) (.slipped s' (a :: as))

/-- Any number of steps. -/
inductive VRun (m : ProgSem) (frame : Func → Reg) (snip : Func → Ev → Code → State → W → Prop)
    (after : Func → Code → (Nat → Byte) → Prop) (g : W) : VProc → VProc → Prop
  | refl (p : VProc) : VRun m frame snip after g p p
  | step {p q r : VProc} : VRun m frame snip after g p q → VStep m frame snip after g q r →
      VRun m frame snip after g p r

/-- As `EProtected`, and no failing check is passed over. -/
structure VProtected (m : ProgSem) (frame : Func → Reg) (snip : Func → Ev → Code → State → W → Prop)
    (after : Func → Code → (Nat → Byte) → Prop) (g : W) (f : Func) : Prop where
  recorded : ∀ s0 p s a as, Recorded g [] s0 →
    VRun m frame snip after g (.on (.start f p s0)) (.on (.run s (a :: as))) →
    m.danger a.func a.done → ∃ l, Recorded g l s ∧
      ∀ x ∈ a :: as, ¬ m.stays x.func → x.ra ∈ l ∨ m.inReg x.func ∧ s.regs (frame x.func) = x.ra
  unchecked : ∀ s0 p v, Recorded g [] s0 →
    ¬ VRun m frame snip after g (.on (.start f p s0)) (.on (.hijacked v))
  accepted : ∀ s0 p s acts v, Recorded g [] s0 →
    VRun m frame snip after g (.on (.start f p s0)) (.on (.run s acts)) →
    VStep m frame snip after g (.on (.run s acts)) (.on (.diverted v)) → v = 0 ∨ ∃ x ∈ acts, v = x.ra
  alarm : ∀ s0 p s acts, Recorded g [] s0 →
    VRun m frame snip after g (.on (.start f p s0)) (.on (.run s acts)) →
    VStep m frame snip after g (.on (.run s acts)) (.on .killed) →
    ∃ a as, acts = a :: as ∧ s.mem.read64 a.at_ ≠ a.ra
  stopped : ∀ s0 p s acts, Recorded g [] s0 →
    ¬ VRun m frame snip after g (.on (.start f p s0)) (.slipped s acts)

end Verif
