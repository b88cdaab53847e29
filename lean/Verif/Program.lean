import Verif.CheckLemmas
import Verif.PathSpec

/-!
# Specification: executions of a whole instrumented program under attack

A thread executes a stack of activations.  Each activation runs the events (blocks, pushes,
checks) of its function in some order the function allows.  At dangerous moments the attacker
may replace the stored return address of every activation.  Nothing here refers to
an analysis or to an instrumentation strategy.
-/

namespace Verif

/-- What the instrumented functions do. -/
structure ProgSem where
  /-- the function may start by executing these events -/
  trace : Func → List Ev → Prop
  /-- these events bring the function to the instruction with which it returns or jumps to
  another function -/
  complete : Func → List Ev → Prop
  /-- having executed these events, the last of which is still going on, the function may
  overwrite return addresses -/
  danger : Func → List Ev → Prop
  /-- having executed these events the function may call this one, directly or through a library -/
  calls : Func → List Ev → Func → Prop
  /-- having executed these events the function may jump to the start of this one -/
  tails : Func → List Ev → Func → Prop
  /-- the return address is recorded in a register and not on the shadow stack -/
  inReg : Func → Prop
  /-- the function never returns -/
  stays : Func → Prop

/-- An activation of a function. -/
structure Act where
  func : Func
  /-- what it has executed -/
  done : List Ev
  /-- the return address stored by its caller -/
  ra : W
  /-- what the place on the stack holds now -/
  slot : W
  /-- the frame register -/
  reg : Option W := none

/-- A thread: its activations, innermost first, and its shadow stack, topmost entry first; or
what became of it. -/
inductive Proc
  | run (acts : List Act) (shadow : List W)
  /-- a check failed -/
  | killed
  /-- a check accepted this value, which is not the return address the caller stored -/
  | diverted (v : W)
  /-- control went, unchecked, to this value, which is not what the caller stored -/
  | hijacked (v : W)

/-- The same activations up to the contents of the places on the stack. -/
inductive Overwritten : List Act → List Act → Prop
  | nil : Overwritten [] []
  | cons {a : Act} {as bs : List Act} (v : W) : Overwritten as bs →
      Overwritten (a :: as) ({ a with slot := v } :: bs)

/-- One step of a thread. -/
inductive PStep (m : ProgSem) : Proc → Proc → Prop
  | push {a : Act} {as : List Act} {l : List W} : m.trace a.func (a.done ++ [.push]) →
      ¬ m.inReg a.func →
      PStep m (.run (a :: as) l) (.run ({ a with done := a.done ++ [.push] } :: as) (a.slot :: l))
  | save {a : Act} {as : List Act} {l : List W} : m.trace a.func (a.done ++ [.push]) →
      m.inReg a.func →
      PStep m (.run (a :: as) l)
        (.run ({ a with done := a.done ++ [.push], reg := some a.slot } :: as) l)
  | block {a : Act} {as : List Act} {l : List W} {b : Blk} :
      m.trace a.func (a.done ++ [.block b]) →
      PStep m (.run (a :: as) l) (.run ({ a with done := a.done ++ [.block b] } :: as) l)
  | attack {a : Act} {as as' : List Act} {l : List W} :
      m.danger a.func a.done → Overwritten (a :: as) as' →
      PStep m (.run (a :: as) l) (.run as' l)
  | call {a : Act} {as : List Act} {l : List W} {g : Func} (ra : W) : m.calls a.func a.done g →
      PStep m (.run (a :: as) l) (.run (⟨g, [], ra, ra, none⟩ :: a :: as) l)
  | check {a : Act} {as : List Act} {l : List W} {n : Nat} :
      m.trace a.func (a.done ++ [.check]) → ¬ m.inReg a.func → scan a.slot l = some n →
      a.slot = a.ra →
      PStep m (.run (a :: as) l)
        (.run ({ a with done := a.done ++ [.check] } :: as) (l.drop (n + 1)))
  | accept {a : Act} {as : List Act} {l : List W} {n : Nat} :
      m.trace a.func (a.done ++ [.check]) → ¬ m.inReg a.func → scan a.slot l = some n →
      a.slot ≠ a.ra → PStep m (.run (a :: as) l) (.diverted a.slot)
  | compare {a : Act} {as : List Act} {l : List W} :
      m.trace a.func (a.done ++ [.check]) → m.inReg a.func → a.reg = some a.slot →
      a.slot = a.ra →
      PStep m (.run (a :: as) l) (.run ({ a with done := a.done ++ [.check] } :: as) l)
  | equal {a : Act} {as : List Act} {l : List W} :
      m.trace a.func (a.done ++ [.check]) → m.inReg a.func → a.reg = some a.slot →
      a.slot ≠ a.ra → PStep m (.run (a :: as) l) (.diverted a.slot)
  | search {a : Act} {as : List Act} {l : List W} {n : Nat} :
      m.trace a.func (a.done ++ [.check]) → m.inReg a.func → a.reg ≠ some a.slot →
      scan a.slot l = some n → PStep m (.run (a :: as) l) (.diverted a.slot)
  | fail {a : Act} {as : List Act} {l : List W} :
      m.trace a.func (a.done ++ [.check]) → (m.inReg a.func → a.reg ≠ some a.slot) →
      scan a.slot l = none → PStep m (.run (a :: as) l) .killed
  | ret {a : Act} {as : List Act} {l : List W} : m.complete a.func a.done → a.slot = a.ra →
      PStep m (.run (a :: as) l) (.run as l)
  | hijack {a : Act} {as : List Act} {l : List W} : m.complete a.func a.done → ¬ m.stays a.func →
      a.slot ≠ a.ra → PStep m (.run (a :: as) l) (.hijacked a.slot)
  | tail {a : Act} {as : List Act} {l : List W} {g : Func} : m.complete a.func a.done →
      m.tails a.func a.done g →
      PStep m (.run (a :: as) l) (.run ({ a with func := g, done := [], reg := none } :: as) l)

/-- Any number of steps. -/
inductive PRun (m : ProgSem) : Proc → Proc → Prop
  | refl (p : Proc) : PRun m p p
  | step {p q r : Proc} : PRun m p q → PStep m q r → PRun m p r

/-- The return address of the activation is recorded. -/
def Act.Recorded (l : List W) (a : Act) : Prop := a.ra ∈ l ∨ a.reg = some a.ra

/-- A program is protected against its attacker: whatever happens after it has started with an
activation of `f`,

* at dangerous moments the return address of every activation of a function that may return is recorded;
* no return goes unchecked to anything but the caller;
* a check accepts only the caller's address, that of another activation, or zero. -/
structure Protected (m : ProgSem) (f : Func) : Prop where
  recorded : ∀ ra a as l, PRun m (.run [⟨f, [], ra, ra, none⟩] []) (.run (a :: as) l) →
    m.danger a.func a.done → ∀ x ∈ a :: as, ¬ m.stays x.func → x.Recorded l
  unchecked : ∀ ra v, ¬ PRun m (.run [⟨f, [], ra, ra, none⟩] []) (.hijacked v)
  accepted : ∀ ra acts l v, PRun m (.run [⟨f, [], ra, ra, none⟩] []) (.run acts l) →
    PStep m (.run acts l) (.diverted v) → v = 0 ∨ ∃ x ∈ acts, v = x.ra

end Verif
