import Verif.Program
import Verif.Thread

/-!
# Specification: an instrumented program as a machine executes it, under attack

As `Verif.Program`, but with the state of the machine in place of an abstract shadow stack:
return addresses are words in memory, recorded addresses are whatever is in the thread's
shadow region, and pushes and checks are executions of the code that the emitter returns.
Between the snippets the program, its libraries and the attacker may do anything to registers and
memory, apart from what the steps say.
-/

namespace Verif

/-- An activation of a function. -/
structure XAct where
  func : Func
  /-- what it has executed -/
  done : List Ev
  /-- the return address stored by its caller -/
  ra : W
  /-- where its caller stored it -/
  at_ : W

/-- A thread in execution, its activations innermost first; or what became of it. -/
inductive XProc
  | run (s : State) (acts : List XAct)
  /-- an inserted snippet raised SIGILL -/
  | killed
  /-- a check accepted this value, which is not the return address the caller stored -/
  | diverted (v : W)
  /-- control went, unchecked, to this value, which is not what the caller stored -/
  | hijacked (v : W)

/-- What everything except the snippets leaves alone: the thread's gs base and its shadow region,
and, from push to check, the frame register of a function which keeps its return address there. -/
structure Spares (m : ProgSem) (frame : Func → Reg) (g : W) (a : XAct) (s s' : State) : Prop where
  gs : s'.gs = s.gs
  region : ∀ x, InRange x g regionSize → s'.mem x = s.mem x
  frame : m.inReg a.func → .push ∈ a.done → .check ∉ a.done →
    s'.regs (frame a.func) = s.regs (frame a.func)

/-- The stored return addresses are the same. -/
def SameSlots (acts : List XAct) (s s' : State) : Prop :=
  ∀ x ∈ acts, s'.mem.read64 x.at_ = s.mem.read64 x.at_

/-- No stored return address, nor the area in which a snippet saves registers, is in the shadow
region, and the snippet does not save registers over return addresses. -/
def Clear (g : W) (acts : List XAct) (n : Nat) (s : State) : Prop := ∀ x ∈ acts, Apart g x.at_ n s

/-- One step of a thread whose shadow region is at `g`.  `frame f` is the frame register of `f`. -/
inductive XStep (m : ProgSem) (frame : Func → Reg) (g : W) : XProc → XProc → Prop
  /-- instructions of the program; stored return addresses change at dangerous moments only -/
  | work {s s' : State} {a : XAct} {as : List XAct} : Spares m frame g a s s' →
      m.danger a.func a.done ∨ SameSlots (a :: as) s s' →
      XStep m frame g (.run s (a :: as)) (.run s' (a :: as))
  /-- a block begins -/
  | block {s : State} {a : XAct} {as : List XAct} {b : Blk} : m.trace a.func (a.done ++ [.block b]) →
      XStep m frame g (.run s (a :: as)) (.run s ({ a with done := a.done ++ [.block b] } :: as))
  /-- a call stores its return address somewhere -/
  | call {s s' : State} {a : XAct} {as : List XAct} {h : Func} (p : W) : m.calls a.func a.done h →
      Spares m frame g a s s' → SameSlots (a :: as) s s' →
      XStep m frame g (.run s (a :: as)) (.run s' (⟨h, [], s'.mem.read64 p, p⟩ :: a :: as))
  /-- a push onto the shadow stack -/
  | push {s s' : State} {a : XAct} {as : List XAct} {code : Code} {d : Int} {n : Nat}
      {free : Reg → Prop} : m.trace a.func (a.done ++ [.push]) → ¬ m.inReg a.func →
      IsPush code d n free → s.retAddr d = a.at_ → Clear g (a :: as) n s → HasRoom g s →
      Exits code s s' →
      XStep m frame g (.run s (a :: as)) (.run s' ({ a with done := a.done ++ [.push] } :: as))
  | pushTrap {s : State} {a : XAct} {as : List XAct} {code : Code} {d : Int} {n : Nat}
      {free : Reg → Prop} : m.trace a.func (a.done ++ [.push]) → ¬ m.inReg a.func →
      IsPush code d n free → s.retAddr d = a.at_ → Clear g (a :: as) n s → HasRoom g s →
      Traps code s → XStep m frame g (.run s (a :: as)) .killed
  /-- a push into the frame register -/
  | save {s s' : State} {a : XAct} {as : List XAct} {code : Code} {d : Int} :
      m.trace a.func (a.done ++ [.push]) → m.inReg a.func → IsRegPush code (frame a.func) d →
      s.retAddr d = a.at_ → Clear g (a :: as) 0 s → Exits code s s' →
      XStep m frame g (.run s (a :: as)) (.run s' ({ a with done := a.done ++ [.push] } :: as))
  | saveTrap {s : State} {a : XAct} {as : List XAct} {code : Code} {d : Int} :
      m.trace a.func (a.done ++ [.push]) → m.inReg a.func → IsRegPush code (frame a.func) d →
      s.retAddr d = a.at_ → Clear g (a :: as) 0 s → Traps code s →
      XStep m frame g (.run s (a :: as)) .killed
  /-- a check on the shadow stack -/
  | check {s s' : State} {a : XAct} {as : List XAct} {code : Code} {d : Int} {n : Nat}
      {free : Reg → Prop} : m.trace a.func (a.done ++ [.check]) → ¬ m.inReg a.func →
      IsCheck code d n free → s.retAddr d = a.at_ → Clear g (a :: as) n s →
      Exits code s s' → s.mem.read64 a.at_ = a.ra →
      XStep m frame g (.run s (a :: as)) (.run s' ({ a with done := a.done ++ [.check] } :: as))
  | accept {s s' : State} {a : XAct} {as : List XAct} {code : Code} {d : Int} {n : Nat}
      {free : Reg → Prop} : m.trace a.func (a.done ++ [.check]) → ¬ m.inReg a.func →
      IsCheck code d n free → s.retAddr d = a.at_ → Clear g (a :: as) n s →
      Exits code s s' → s.mem.read64 a.at_ ≠ a.ra →
      XStep m frame g (.run s (a :: as)) (.diverted (s.mem.read64 a.at_))
  | fail {s : State} {a : XAct} {as : List XAct} {code : Code} {d : Int} {n : Nat}
      {free : Reg → Prop} : m.trace a.func (a.done ++ [.check]) → ¬ m.inReg a.func →
      IsCheck code d n free → s.retAddr d = a.at_ → Clear g (a :: as) n s →
      Traps code s → XStep m frame g (.run s (a :: as)) .killed
  /-- a check of the frame register -/
  | compare {s s' : State} {a : XAct} {as : List XAct} {code : Code} :
      m.trace a.func (a.done ++ [.check]) → m.inReg a.func → IsRegPop code (frame a.func) →
      s.regs .rsp = a.at_ → Clear g (a :: as) 16 s → Exits code s s' → s.mem.read64 a.at_ = a.ra →
      XStep m frame g (.run s (a :: as)) (.run s' ({ a with done := a.done ++ [.check] } :: as))
  | acceptReg {s s' : State} {a : XAct} {as : List XAct} {code : Code} :
      m.trace a.func (a.done ++ [.check]) → m.inReg a.func → IsRegPop code (frame a.func) →
      s.regs .rsp = a.at_ → Clear g (a :: as) 16 s → Exits code s s' → s.mem.read64 a.at_ ≠ a.ra →
      XStep m frame g (.run s (a :: as)) (.diverted (s.mem.read64 a.at_))
  | failReg {s : State} {a : XAct} {as : List XAct} {code : Code} :
      m.trace a.func (a.done ++ [.check]) → m.inReg a.func → IsRegPop code (frame a.func) →
      s.regs .rsp = a.at_ → Clear g (a :: as) 16 s → Traps code s →
      XStep m frame g (.run s (a :: as)) .killed
  /-- a return takes whatever the place holds; what the instruction does to registers is part of
  the work of the caller -/
  | ret {s : State} {a : XAct} {as : List XAct} : m.complete a.func a.done →
      s.mem.read64 a.at_ = a.ra → XStep m frame g (.run s (a :: as)) (.run s as)
  | hijack {s : State} {a : XAct} {as : List XAct} : m.complete a.func a.done → ¬ m.stays a.func →
      s.mem.read64 a.at_ ≠ a.ra →
      XStep m frame g (.run s (a :: as)) (.hijacked (s.mem.read64 a.at_))
  /-- a jump to another function leaves the return address where it is -/
  | tail {s : State} {a : XAct} {as : List XAct} {h : Func} : m.complete a.func a.done →
      m.tails a.func a.done h →
      XStep m frame g (.run s (a :: as)) (.run s ({ a with func := h, done := [] } :: as))

/-- Any number of steps. -/
inductive XRun (m : ProgSem) (frame : Func → Reg) (g : W) : XProc → XProc → Prop
  | refl (p : XProc) : XRun m frame g p p
  | step {p q r : XProc} : XRun m frame g p q → XStep m frame g q r → XRun m frame g p r

/-- The thread has just been started with a call of `f`, whose return address is at `p`. -/
def XProc.start (f : Func) (p : W) (s : State) : XProc := .run s [⟨f, [], s.mem.read64 p, p⟩]

/-- The machine protects the thread: whatever happens after it has started with an empty shadow
stack,

* at dangerous moments the return address of every activation of a function that may return is in the
  shadow region between its bottom and the shadow pointer, or in the frame register;
* no return goes unchecked to anything but the caller;
* a check accepts only the caller's address, that of another activation, or zero;
* the thread is killed only when its innermost stored return address has been changed. -/
structure XProtected (m : ProgSem) (frame : Func → Reg) (g : W) (f : Func) : Prop where
  recorded : ∀ s0 p s a as, Recorded g [] s0 → XRun m frame g (.start f p s0) (.run s (a :: as)) →
    m.danger a.func a.done → ∃ l, Recorded g l s ∧
      ∀ x ∈ a :: as, ¬ m.stays x.func → x.ra ∈ l ∨ m.inReg x.func ∧ s.regs (frame x.func) = x.ra
  unchecked : ∀ s0 p v, Recorded g [] s0 → ¬ XRun m frame g (.start f p s0) (.hijacked v)
  accepted : ∀ s0 p s acts v, Recorded g [] s0 → XRun m frame g (.start f p s0) (.run s acts) →
    XStep m frame g (.run s acts) (.diverted v) → v = 0 ∨ ∃ x ∈ acts, v = x.ra
  alarm : ∀ s0 p s acts, Recorded g [] s0 → XRun m frame g (.start f p s0) (.run s acts) →
    XStep m frame g (.run s acts) .killed → ∃ a as, acts = a :: as ∧ s.mem.read64 a.at_ ≠ a.ra

end Verif
