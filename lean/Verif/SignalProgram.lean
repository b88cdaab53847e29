import Verif.Signals
import Verif.UnwindMachine

/-!
# Specification: a machine executing an instrumented program with exceptions and signal handlers

Executions as in `Verif.UnwindMachine`, with signals.  Handlers are of two kinds.  Those which leave the
stored return addresses of the program alone may interrupt it at any time, also in the middle of a snippet
(`Sigs`, in `Verif.Signals`).  All others are functions of the program like any other: a signal is a call
of the handler from where the program is, and when the handler has returned the program goes on with
registers and memory as the handler, or an attacker, has left them.
-/

namespace Verif

/-- The program in which a signal may start the handler `h` in `f` when these events have been executed,
if `H f` says so. -/
def ProgSem.handling (m : ProgSem) (H : Func → List Ev → Func → Prop) : ProgSem :=
  { m with calls := fun f t h => m.calls f t h ∨ H f t h }

/-- The bytes of the stored return addresses. -/
def Slot (acts : List XAct) (x : W) : Prop := ∃ a ∈ acts, InRange x a.at_ 8

/-- What a handler leaves alone when it interrupts a snippet which was started in the state `s`: the stored
return addresses and the 16 bytes below the stack pointer. -/
def Needed (acts : List XAct) (s : State) (x : W) : Prop :=
  Slot acts x ∨ InRange x (s.regs .rsp - BitVec.ofNat 64 16) 16

/-- The signals which a snippet meets.  Between the store of a return address and the move of the pointer,
and while the pointer is at the guard, only such that leave the shadow region alone. -/
def During (sig : Sigs) (g : W) (K : W → Prop) (k : Code) (s s' : State) : Prop :=
  sig.back K s s' ∧ (BeforePointer k ∨ s.mem.read64 g = g + BitVec.ofNat 64 24 → Quiet g s s')

/-- One step of a thread whose shadow region is at `g`: one of `step`, or one in which there is a signal.
`m` and `snip` are as in `EStep`. -/
inductive Disturbed (step : XProc → XProc → Prop) (m : ProgSem)
    (snip : Func → Ev → Code → State → W → Prop) (sig : Sigs) (g : W) : XProc → XProc → Prop
  | step {p q : XProc} : step p q → Disturbed step m snip sig g p q
  /-- between two events -/
  | signal {s s' : State} {a : XAct} {as : List XAct} : sig.back (Slot (a :: as)) s s' →
      Disturbed step m snip sig g (.run s (a :: as)) (.run s' (a :: as))
  /-- the handler does not return but jumps to an activation further outside -/
  | jump {s s' : State} {u : XAct} {up : List XAct} {a : XAct} {as : List XAct} : sig.away s s' →
      SameSlots (a :: as) s s' →
      Disturbed step m snip sig g (.run s (u :: up ++ a :: as)) (.run s' (a :: as))
  /-- a snippet is interrupted, any number of times -/
  | snippet {s s' : State} {a : XAct} {as : List XAct} {ev : Ev} {code : Code} :
      m.trace a.func (a.done ++ [ev]) → snip a.func ev code s a.at_ → Clear g (a :: as) 16 s →
      Interrupted (During sig g (Needed (a :: as) s)) (fun k t => ev = .push → RoomFor g k t) code code s
        [] s' →
      (ev = .check → s.mem.read64 a.at_ = a.ra) →
      Disturbed step m snip sig g (.run s (a :: as)) (.run s' ({ a with done := a.done ++ [ev] } :: as))
  /-- a handler which interrupts a snippet does not return but jumps to an activation further outside, whose
  return address and those of its callers are as they were when the snippet began -/
  | escape {s t s' : State} {a : XAct} {up : List XAct} {b : XAct} {bs : List XAct} {ev : Ev} {code k : Code} :
      m.trace a.func (a.done ++ [ev]) → snip a.func ev code s a.at_ → Clear g (a :: up ++ b :: bs) 16 s →
      Interrupted (During sig g (Needed (a :: up ++ b :: bs) s)) (fun k t => ev = .push → RoomFor g k t) code code
        s k t →
      (ev = .check → s.mem.read64 a.at_ = a.ra ∧ ∀ l, Recorded g l s → ∀ v ∈ l, ¬ GuardLike v) →
      sig.away t s' → SameSlots (b :: bs) s s' →
      Disturbed step m snip sig g (.run s (a :: up ++ b :: bs)) (.run s' (b :: bs))
  | accept {s s' : State} {a : XAct} {as : List XAct} {code : Code} :
      m.trace a.func (a.done ++ [.check]) → snip a.func .check code s a.at_ → Clear g (a :: as) 16 s →
      Interrupted (During sig g (Needed (a :: as) s)) (fun _ _ => True) code code s [] s' →
      s.mem.read64 a.at_ ≠ a.ra →
      Disturbed step m snip sig g (.run s (a :: as)) (.diverted (s.mem.read64 a.at_))
  | trap {s s' : State} {a : XAct} {as : List XAct} {ev : Ev} {code k : Code} :
      m.trace a.func (a.done ++ [ev]) → snip a.func ev code s a.at_ → Clear g (a :: as) 16 s →
      Interrupted (During sig g (Needed (a :: as) s)) (fun k t => ev = .push → RoomFor g k t) code code s
        (.illegal :: k) s' →
      Disturbed step m snip sig g (.run s (a :: as)) .killed

/-- On this way an activation with this return address has disappeared while its push was due, or being
executed. -/
def XCut (m : ProgSem) (ps : List XProc) (v : W) : Prop :=
  Once (fun p q => ∃ a up acts s s', p = .run s (a :: up ++ acts) ∧ q = .run s' acts ∧
    m.trace a.func (a.done ++ [.push]) ∧ ¬ m.inReg a.func ∧ v = a.ra) ps

/-- The machine protects the thread with the given steps, as `UXProtected` says, but a check may also accept
an address in `own`, to which the handlers return, and that of an activation whose push has been left by a
jump. -/
structure SProtected (m : ProgSem) (frame : Func → Reg) (step : XProc → XProc → Prop) (own : W → Prop) (g : W)
    (f : Func) : Prop where
  recorded : ∀ s0 p s a as, Recorded g [] s0 → Steps step (.start f p s0) (.run s (a :: as)) →
    m.danger a.func a.done → ∃ l, Recorded g l s ∧
      ∀ x ∈ a :: as, ¬ m.stays x.func → x.ra ∈ l ∨ m.inReg x.func ∧ s.regs (frame x.func) = x.ra
  unchecked : ∀ s0 p v, Recorded g [] s0 → ¬ Steps step (.start f p s0) (.hijacked v)
  accepted : ∀ s0 p s acts ps v, Recorded g [] s0 → Trail step (.start f p s0) (.run s acts :: ps) →
    step (.run s acts) (.diverted v) → v = 0 ∨
      (∃ x ∈ acts, m.stacked x.func x.done ∧ v = x.ra) ∨ XLost m (.run s acts :: ps) v ∨
        XCut m (.run s acts :: ps) v ∨ own v
  quiet : ∀ s0 p s a as l, Recorded g [] s0 → Steps step (.start f p s0) (.run s (a :: as)) →
    s.mem.read64 a.at_ = a.ra → Recorded g l s → (∀ v ∈ l, ¬ GuardLike v) →
    ¬ step (.run s (a :: as)) .killed

end Verif
