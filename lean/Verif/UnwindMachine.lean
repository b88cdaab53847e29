import Verif.Unwind
import Verif.PlanMachine

/-!
# Specification: a machine executing an instrumented program with exceptions

Executions as in `Verif.Machine` or `Verif.PlanMachine`, and in addition any number of innermost
activations may be removed at any time.  The unwinder and what it calls do anything to registers and
memory, except that they leave the thread's gs base, its shadow region and the return addresses of the
remaining activations alone.
-/

namespace Verif

/-- One step of a thread whose shadow region is at `g`: one of `step`, or unwinding. -/
inductive Unwinding (step : XProc → XProc → Prop) (g : W) : XProc → XProc → Prop
  | step {p q : XProc} : step p q → Unwinding step g p q
  /-- `u` and the activations `up` are abandoned, whatever their return addresses are by now -/
  | unwind {s s' : State} {u : XAct} {up : List XAct} {a : XAct} {as : List XAct} :
      s'.gs = s.gs →
      (∀ x, InRange x g regionSize → s'.mem x = s.mem x) → SameSlots (a :: as) s s' →
      Unwinding step g (.run s (u :: up ++ a :: as)) (.run s' (a :: as))

/-- Any number of steps. -/
inductive Steps (step : XProc → XProc → Prop) : XProc → XProc → Prop
  | refl (p : XProc) : Steps step p p
  | step {p q r : XProc} : Steps step p q → step q r → Steps step p r

/-- Unwinding goes on at this value, which is not what the caller stored. -/
def XMisled (p : XProc) (v : W) : Prop :=
  ∃ s up x as, p = .run s (up ++ x :: as) ∧ (∀ y ∈ up, s.mem.read64 y.at_ = y.ra) ∧
    s.mem.read64 x.at_ = v ∧ v ≠ x.ra

/-- On this way an activation with this return address has disappeared before its check. -/
def XLost (m : ProgSem) (ps : List XProc) (v : W) : Prop :=
  Once (fun p q => ∃ up acts s s', p = .run s (up ++ acts) ∧ q = .run s' acts ∧
    ∃ x ∈ up, m.stacked x.func x.done ∧ v = x.ra) ps

/-- The machine protects the thread with the given steps: whatever happens after it has started with
an empty shadow stack,

* at dangerous moments the return address of every activation of a function that may return is in the
  shadow region between its bottom and the shadow pointer, or in the frame register;
* no return goes unchecked to anything but the caller;
* a check accepts only the caller's address, that of another activation between its push and its check, that
  of an activation which has disappeared between its push and its check in this very execution, or zero;
* the thread is not killed while its innermost stored return address is what the caller stored, unless
  the low half of an address in the shadow region is zero. -/
structure UXProtected (m : ProgSem) (frame : Func → Reg) (step : XProc → XProc → Prop) (g : W)
    (f : Func) : Prop where
  recorded : ∀ s0 p s a as, Recorded g [] s0 → Steps step (.start f p s0) (.run s (a :: as)) →
    m.danger a.func a.done → ∃ l, Recorded g l s ∧
      ∀ x ∈ a :: as, ¬ m.stays x.func → x.ra ∈ l ∨ m.inReg x.func ∧ s.regs (frame x.func) = x.ra
  unchecked : ∀ s0 p v, Recorded g [] s0 → ¬ Steps step (.start f p s0) (.hijacked v)
  accepted : ∀ s0 p s acts ps v, Recorded g [] s0 → Trail step (.start f p s0) (.run s acts :: ps) →
    step (.run s acts) (.diverted v) → v = 0 ∨
      (∃ x ∈ acts, m.stacked x.func x.done ∧ v = x.ra) ∨ XLost m (.run s acts :: ps) v
  quiet : ∀ s0 p s a as l, Recorded g [] s0 → Steps step (.start f p s0) (.run s (a :: as)) →
    s.mem.read64 a.at_ = a.ra → Recorded g l s → (∀ v ∈ l, ¬ GuardLike v) →
    ¬ step (.run s (a :: as)) .killed

end Verif
