import Verif.Thread
import Verif.Footprint

/-!
# Specification: signal handlers

A signal may arrive between any two instructions of a thread, also in the middle of a snippet.  Its
handler runs in the same thread: on the thread's stack, below the red zone, or on a stack of its own, and
with the same gs base, thus with the same shadow region.  Functions of an instrumented program which are
used as handlers, or called by them, contain snippets, and these may be interrupted in turn.  When the
handler returns, the kernel restores all registers.
-/

namespace Verif

/-- The snippet `w` is executed, from the suffix `k` in state `s` on, with signals in between: `sig k s s'`
says that a signal in state `s`, when `k` is left of the snippet, has the effect `s'`.  `fits` is a
condition on the states in which instructions are executed. -/
inductive Interrupted (sig : Code → State → State → Prop) (fits : Code → State → Prop) (w k : Code)
    (s : State) : Code → State → Prop
  | refl : Interrupted sig fits w k s k s
  | instr {k1 k2 : Code} {s1 s2 : State} : Interrupted sig fits w k s k1 s1 → fits k1 s1 →
      Go w k1 s1 k2 s2 → Interrupted sig fits w k s k2 s2
  | signal {k1 : Code} {s1 s2 : State} : Interrupted sig fits w k s k1 s1 → sig k1 s1 s2 →
      Interrupted sig fits w k s k1 s2

/-- What the snippets rely on outside of the shadow region: the return address at `R` and the `n` bytes
below the stack pointer `sp`. -/
def Relies (R sp : W) (n : Nat) (x : W) : Prop := InRange x R 8 ∨ InRange x (sp - BitVec.ofNat 64 n) n

/-- The shadow region is left alone. -/
def Quiet (g : W) (s s' : State) : Prop := ∀ x, InRange x g regionSize → s'.mem x = s.mem x

/-- The next instruction of the snippet loads the shadow pointer, and there is room for one more entry. -/
def RoomFor (g : W) (k : Code) (s : State) : Prop := ∀ r k', k = .loadGs r 0 :: k' → HasRoom g s

/-- The signals which a snippet meets: at the points in `win` only such that leave the region alone. -/
def At (sig : State → State → Prop) (win : Code → Prop) (g : W) (k : Code) (s s' : State) : Prop :=
  sig s s' ∧ (win k → Quiet g s s')

/-- What signals do.  `back K s s'`: a handler which leaves the bytes in `K` alone runs in state `s`, and `s'`
is the state in which what was interrupted goes on.  `away s s'`: a handler, started in state `s`, is left by
`siglongjmp`, and `s'` is the state at the place it jumps to. -/
structure Sigs where
  back : (W → Prop) → State → State → Prop
  away : State → State → Prop

/-- One step of an honest thread whose region is at `g`, as in `HonestStep`, with signals.  All
calls are made from places in `own`. -/
inductive SigStep (sig : Sigs) (win : Code → Prop) (own : W → Prop) (g : W) :
    Conf → Conf → Prop
  | work {s s' p leaf} : s'.gs = s.gs → (∀ x, InRange x g regionSize → s'.mem x = s.mem x) →
      (∀ r v, leaf = some (r, v) → s'.regs r = s.regs r) →
      SigStep sig win own g (.run s p leaf) (.run s' p leaf)
  /-- a signal outside of the snippets -/
  | signal {s s' p leaf} : sig.back (fun _ => False) s s' → SigStep sig win own g (.run s p leaf) (.run s' p leaf)
  | call {s s' p code d n free} : IsPush code d n free → Apart g (s.retAddr d) n s →
      own (s.mem.read64 (s.retAddr d)) →
      Interrupted (At (sig.back (Relies (s.retAddr d) (s.regs .rsp) n)) win g) (RoomFor g) code code s [] s' →
      SigStep sig win own g (.run s p none) (.run s' (s.mem.read64 (s.retAddr d) :: p) none)
  | callTrap {s s' p code k d n free} : IsPush code d n free → Apart g (s.retAddr d) n s →
      own (s.mem.read64 (s.retAddr d)) →
      Interrupted (At (sig.back (Relies (s.retAddr d) (s.regs .rsp) n)) win g) (RoomFor g) code code s
        (.illegal :: k) s' → SigStep sig win own g (.run s p none) .killed
  | ret {s s' ra p code d n free} : IsCheck code d n free → Apart g (s.retAddr d) n s →
      s.mem.read64 (s.retAddr d) = ra →
      Interrupted (At (sig.back (Relies (s.retAddr d) (s.regs .rsp) n)) win g) (fun _ _ => True) code code s
        [] s' → SigStep sig win own g (.run s (ra :: p) none) (.run s' p none)
  | retTrap {s s' ra p code k d n free} : IsCheck code d n free → Apart g (s.retAddr d) n s →
      s.mem.read64 (s.retAddr d) = ra →
      Interrupted (At (sig.back (Relies (s.retAddr d) (s.regs .rsp) n)) win g) (fun _ _ => True) code code s
        (.illegal :: k) s' → SigStep sig win own g (.run s (ra :: p) none) .killed
  | enter {s s' p code reg d} : IsRegPush code reg d → Sep (s.retAddr d) 8 g regionSize →
      Interrupted (At (sig.back (Relies (s.retAddr d) (s.regs .rsp) 0)) win g) (fun _ _ => True) code code s
        [] s' → SigStep sig win own g (.run s p none) (.run s' p (some (reg, s.mem.read64 (s.retAddr d))))
  | enterTrap {s s' p code k reg d} : IsRegPush code reg d → Sep (s.retAddr d) 8 g regionSize →
      Interrupted (At (sig.back (Relies (s.retAddr d) (s.regs .rsp) 0)) win g) (fun _ _ => True) code code s
        (.illegal :: k) s' → SigStep sig win own g (.run s p none) .killed
  | leave {s s' p code reg ra} : IsRegPop code reg → s.mem.read64 (s.regs .rsp) = ra →
      Interrupted (At (sig.back (Relies (s.regs .rsp) (s.regs .rsp) 0)) win g) (fun _ _ => True) code code s
        [] s' → SigStep sig win own g (.run s p (some (reg, ra))) (.run s' p none)
  | leaveTrap {s s' p code k reg ra} : IsRegPop code reg → s.mem.read64 (s.regs .rsp) = ra →
      Interrupted (At (sig.back (Relies (s.regs .rsp) (s.regs .rsp) 0)) win g) (fun _ _ => True) code code s
        (.illegal :: k) s' → SigStep sig win own g (.run s p (some (reg, ra))) .killed
  | unwind {s p leaf} (k : Nat) : SigStep sig win own g (.run s p leaf) (.run s (p.drop k) none)
  /-- a handler jumps to a pending call; calls further inside are abandoned -/
  | jump {s s' p leaf} (j : Nat) : sig.away s s' → SigStep sig win own g (.run s p leaf) (.run s' (p.drop j) none)
  /-- out of a push: the function which is being entered cannot be the one to go on -/
  | callJump {s t s' p code k d n free} (j : Nat) : IsPush code d n free → Apart g (s.retAddr d) n s →
      own (s.mem.read64 (s.retAddr d)) →
      Interrupted (At (sig.back (Relies (s.retAddr d) (s.regs .rsp) n)) win g) (RoomFor g) code code s k t →
      sig.away t s' → SigStep sig win own g (.run s p none) (.run s' (p.drop j) none)
  /-- out of a check: the function which is returning is abandoned, too -/
  | retJump {s t s' ra p code k d n free} (j : Nat) : IsCheck code d n free → Apart g (s.retAddr d) n s →
      s.mem.read64 (s.retAddr d) = ra →
      Interrupted (At (sig.back (Relies (s.retAddr d) (s.regs .rsp) n)) win g) (fun _ _ => True) code code s k t →
      sig.away t s' → SigStep sig win own g (.run s (ra :: p) none) (.run s' (p.drop j) none)
  | enterJump {s t s' p code k reg d} (j : Nat) : IsRegPush code reg d → Sep (s.retAddr d) 8 g regionSize →
      Interrupted (At (sig.back (Relies (s.retAddr d) (s.regs .rsp) 0)) win g) (fun _ _ => True) code code s k t →
      sig.away t s' → SigStep sig win own g (.run s p none) (.run s' (p.drop j) none)
  | leaveJump {s t s' p code k reg ra} (j : Nat) : IsRegPop code reg → s.mem.read64 (s.regs .rsp) = ra →
      Interrupted (At (sig.back (Relies (s.regs .rsp) (s.regs .rsp) 0)) win g) (fun _ _ => True) code code s k t →
      sig.away t s' → SigStep sig win own g (.run s p (some (reg, ra))) (.run s' (p.drop j) none)

/-- Executions of any length. -/
inductive SigRun (sig : Sigs) (win : Code → Prop) (own : W → Prop) (g : W) :
    Conf → Conf → Prop
  | refl {c} : SigRun sig win own g c c
  | step {a b c} : SigRun sig win own g a b → SigStep sig win own g b c → SigRun sig win own g a c

/-- The kernel starts a handler: the region and the gs base are as they were. -/
structure Entered (g : W) (s s1 : State) : Prop where
  gs : s1.gs = s.gs
  mem : ∀ x, InRange x g regionSize → s1.mem x = s.mem x

/-- The kernel resumes what was interrupted in state `s`, when the handler has ended in state `s2`. -/
structure Resumed (K : W → Prop) (s s2 s' : State) : Prop where
  regs : s'.regs = s.regs
  flags : s'.flags = s.flags
  gs : s'.gs = s.gs
  mem : s'.mem = s2.mem
  keeps : ∀ x, K x → s'.mem x = s.mem x

/-- The thread goes on elsewhere, when a handler has got to state `s2`. -/
structure Jumped (g : W) (s2 s' : State) : Prop where
  gs : s'.gs = s2.gs
  mem : ∀ x, InRange x g regionSize → s'.mem x = s2.mem x

/-- The signals whose handlers are honest instrumented functions, interrupted in turn by handlers up to the
depth `n`.  A handler may be left at any time, with calls of its own in progress. -/
def Handled (win : Code → Prop) (own : W → Prop) (g : W) : Nat → Sigs
  | 0 => ⟨fun _ _ _ => False, fun _ _ => False⟩
  | n + 1 =>
    { back := fun K s s' => ∃ s1 s2, Entered g s s1 ∧
        SigRun (Handled win own g n) win own g (.run s1 [] none) (.run s2 [] none) ∧ Resumed K s s2 s'
      away := fun s s' => ∃ s1 s2 q leaf, Entered g s s1 ∧
        SigRun (Handled win own g n) win own g (.run s1 [] none) (.run s2 q leaf) ∧ Jumped g s2 s' }

/-- Inside a push: the return address has been stored in the slot, the pointer has not been moved yet.
The next instruction is `lea`, or the store of the pointer. -/
def BeforePointer : Code → Prop
  | .lea _ _ d :: _ => d = 8
  | .storeGs 0 _ :: .pop _ :: _ => True
  | [.storeGs 0 _] => True
  | _ => False

end Verif
