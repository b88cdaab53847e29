import Verif.Whole

/-!
# Specification: whole programs with exceptions

Executions as in `Program.lean`, and in addition any number of innermost activations may be removed
at any time, as the unwinder does when an exception is thrown and as `longjmp` does.  Which edge
the activation that catches the exception then follows is part of its trace (`semOn Flow`, which
has the edges to handlers).

The unwinder finds the callers by the return addresses on the stack, `longjmp` does not look at these;
so a removal is possible whatever they are.  `Misled` says where the unwinder goes if they are not what
the callers stored.
-/

namespace Verif

/-- One step of a thread, with exceptions. -/
inductive UStep (m : ProgSem) : Proc → Proc → Prop
  | step {p q : Proc} : PStep m p q → UStep m p q
  /-- the activations `up` are abandoned -/
  | unwind {up : List Act} {a : Act} {as : List Act} {l : List W} :
      UStep m (.run (up ++ a :: as) l) (.run (a :: as) l)

/-- Any number of steps. -/
inductive URun (m : ProgSem) : Proc → Proc → Prop
  | refl (p : Proc) : URun m p p
  | step {p q r : Proc} : URun m p q → UStep m q r → URun m p r

/-- Unwinding goes on at this value, which is not what the caller stored. -/
def Misled (p : Proc) (v : W) : Prop :=
  ∃ up x as l, p = .run (up ++ x :: as) l ∧ (∀ y ∈ up, y.slot = y.ra) ∧ x.slot = v ∧ v ≠ x.ra

/-- An execution which begins with `p`: all it goes through, the last first. -/
inductive Trail {α : Type} (step : α → α → Prop) (p : α) : List α → Prop
  | start : Trail step p [p]
  | step {q r : α} {ps : List α} : Trail step p (q :: ps) → step q r → Trail step p (r :: q :: ps)

/-- Two successive members of an execution are related. -/
def Once {α : Type} (r : α → α → Prop) : List α → Prop
  | q :: p :: ps => r p q ∨ Once r (p :: ps)
  | _ => False

/-- An activation of `f` which has executed these events has an entry on the shadow stack: it is between its
push and its check, and its return address is not kept in a register. -/
def ProgSem.stacked (m : ProgSem) (f : Func) (done : List Ev) : Prop :=
  .push ∈ done ∧ .check ∉ done ∧ ¬ m.inReg f

/-- On this way an activation with this return address has disappeared before its check. -/
def Lost (m : ProgSem) (ps : List Proc) (v : W) : Prop :=
  Once (fun p q => ∃ up acts l l', p = .run (up ++ acts) l ∧ q = .run acts l' ∧
    ∃ x ∈ up, m.stacked x.func x.done ∧ v = x.ra) ps

/-- A program with exceptions is protected against its attacker: whatever happens after it has
started with an activation of `f`,

* at dangerous moments the return address of every activation of a function that may return is recorded;
* no return goes unchecked to anything but the caller;
* a check accepts only the caller's address, that of another activation between its push and its check, that
  of an activation which has disappeared between its push and its check in this very execution, or zero;
* a check of an address which has not been changed succeeds, unless the low half of an address on the
  shadow stack is zero. -/
structure UProtected (m : ProgSem) (f : Func) : Prop where
  recorded : ∀ ra a as l, URun m (.run [⟨f, [], ra, ra, none⟩] []) (.run (a :: as) l) →
    m.danger a.func a.done → ∀ x ∈ a :: as, ¬ m.stays x.func → x.Recorded l
  unchecked : ∀ ra v, ¬ URun m (.run [⟨f, [], ra, ra, none⟩] []) (.hijacked v)
  accepted : ∀ ra acts l ps v, Trail (UStep m) (.run [⟨f, [], ra, ra, none⟩] []) (.run acts l :: ps) →
    UStep m (.run acts l) (.diverted v) → v = 0 ∨
      (∃ x ∈ acts, m.stacked x.func x.done ∧ v = x.ra) ∨ Lost m (.run acts l :: ps) v
  quiet : ∀ ra a as l, URun m (.run [⟨f, [], ra, ra, none⟩] []) (.run (a :: as) l) → a.slot = a.ra →
    (∀ v ∈ l, ¬ GuardLike v) → ¬ UStep m (.run (a :: as) l) .killed

end Verif
