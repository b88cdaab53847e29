import Verif.UnwindMachine
import Verif.Footprint

/-!
# Specification: instrumented programs with several threads

Threads share memory and take turns after every instruction; each has its own registers, its own
shadow region and its own activations.  What a thread does is as in `Verif.UnwindMachine`; a snippet is
executed instruction by instruction, with steps of other threads in between.
-/

namespace Verif

/-- A function changed in one place. -/
def setAt {α : Type} (T : Nat → α) (i : Nat) (x : α) : Nat → α := fun j => if j = i then x else T j

/-- The steps of a thread whose shadow region is at `h`. -/
abbrev threadStep (m : ProgSem) (frame : Func → Reg) (snip : Func → Ev → Code → State → W → Prop)
    (h : W) : XProc → XProc → Prop := Unwinding (EStep m frame snip h) h

/-- A state's registers with this memory. -/
def State.over (s : State) (mem : Mem) : State := { s with mem := mem }

/-! ## On the machine -/

/-- What a thread is doing.  The memory of `s` does not count. -/
inductive Worker
  | own (s : State) (acts : List XAct)
  /-- executing the snippet `w` for the event `ev` of the activation `a`; `k` is left of it, and it
  began in the state `s0` -/
  | busy (w k : Code) (ev : Ev) (s0 s : State) (a : XAct) (as : List XAct)

/-- What the thread has still to do. -/
def Worker.acts : Worker → List XAct
  | .own _ acts => acts
  | .busy _ _ _ _ _ a as => a :: as

/-- Where the thread's latest snippet began, if it is executing one, and where it is otherwise. -/
def Worker.base (mem : Mem) : Worker → State
  | .own s _ => s.over mem
  | .busy _ _ _ s0 _ _ _ => s0

/-- The bytes of memory a thread relies on: its shadow region, its stored return addresses and, during a
snippet, 16 bytes below its stack pointer. -/
def Needs (g : W) : Worker → W → Prop
  | .own _ acts, x => InRange x g regionSize ∨ ∃ b ∈ acts, InRange x b.at_ 8
  | .busy _ _ _ s0 _ a as, x => SnipFoot g a.at_ (s0.regs .rsp) 16 x ∨ ∃ b ∈ a :: as, InRange x b.at_ 8

/-- The same without the stored return addresses of threads which are not executing snippets, and of the
callers in those which are. -/
def RegionOnly (g : W) : Worker → W → Prop
  | .own _ _, x => InRange x g regionSize
  | .busy _ _ _ s0 _ a _, x => SnipFoot g a.at_ (s0.regs .rsp) 16 x

/-- The threads in execution. -/
abbrev Team := Nat → Option Worker

/-- A process. -/
inductive TeamProc
  | run (mem : Mem) (T : Team)
  /-- stopped by what became of this thread -/
  | stopped (i : Nat) (q : XProc)

/-- The change of memory spares what is of interest in the threads other than `i`. -/
def Others (needs : W → Worker → W → Prop) (g : Nat → W) (T : Team) (i : Nat) (mem mem' : Mem) : Prop :=
  ∀ j w, j ≠ i → T j = some w → ∀ x, needs (g j) w x → mem' x = mem x

/-- One step of a process.  The shadow region of thread `i` is at `g i`, and threads leave alone what the
others need. -/
inductive TeamStep (m : ProgSem) (frame : Func → Reg) (snip : Func → Ev → Code → State → W → Prop)
    (needs : W → Worker → W → Prop) (g : Nat → W) : TeamProc → TeamProc → Prop
  /-- a step of a single thread outside of snippets (or with a whole snippet) -/
  | own {mem : Mem} {T : Team} {i : Nat} {s s' : State} {acts acts' : List XAct} :
      T i = some (.own s acts) → threadStep m frame snip (g i) (.run (s.over mem) acts) (.run s' acts') →
      Others needs g T i mem s'.mem →
      TeamStep m frame snip needs g (.run mem T) (.run s'.mem (setAt T i (some (.own s' acts'))))
  | stop {mem : Mem} {T : Team} {i : Nat} {s : State} {acts : List XAct} {q : XProc} :
      T i = some (.own s acts) → threadStep m frame snip (g i) (.run (s.over mem) acts) q →
      (∀ s' acts', q ≠ .run s' acts') → TeamStep m frame snip needs g (.run mem T) (.stopped i q)
  /-- a snippet begins -/
  | begin {mem : Mem} {T : Team} {i : Nat} {s : State} {a : XAct} {as : List XAct} {ev : Ev}
      {code : Code} : T i = some (.own s (a :: as)) → m.trace a.func (a.done ++ [ev]) →
      snip a.func ev code (s.over mem) a.at_ → Clear (g i) (a :: as) 16 (s.over mem) →
      HasRoom (g i) (s.over mem) → TeamStep m frame snip needs g (.run mem T)
        (.run mem (setAt T i (some (.busy code code ev (s.over mem) s a as))))
  /-- one instruction of a snippet -/
  | instr {mem : Mem} {T : Team} {i : Nat} {w k k' : Code} {ev : Ev} {s0 s s' : State} {a : XAct}
      {as : List XAct} : T i = some (.busy w k ev s0 s a as) → Go w k (s.over mem) k' s' →
      Others needs g T i mem s'.mem → TeamStep m frame snip needs g (.run mem T)
        (.run s'.mem (setAt T i (some (.busy w k' ev s0 s' a as))))
  /-- a snippet has come to its end -/
  | finish {mem : Mem} {T : Team} {i : Nat} {w : Code} {ev : Ev} {s0 s : State} {a : XAct}
      {as : List XAct} : T i = some (.busy w [] ev s0 s a as) →
      (ev = .check → s0.mem.read64 a.at_ = a.ra) → TeamStep m frame snip needs g (.run mem T)
        (.run mem (setAt T i (some (.own s ({ a with done := a.done ++ [ev] } :: as)))))
  /-- a check has come to its end although the return address had been changed -/
  | accept {mem : Mem} {T : Team} {i : Nat} {w : Code} {s0 s : State} {a : XAct} {as : List XAct} :
      T i = some (.busy w [] .check s0 s a as) → s0.mem.read64 a.at_ ≠ a.ra →
      TeamStep m frame snip needs g (.run mem T) (.stopped i (.diverted (s0.mem.read64 a.at_)))
  | trap {mem : Mem} {T : Team} {i : Nat} {w k : Code} {ins : Instr} {ev : Ev} {s0 s s' : State}
      {a : XAct} {as : List XAct} : T i = some (.busy w (ins :: k) ev s0 s a as) →
      exec ins (s.over mem) = .trap s' → TeamStep m frame snip needs g (.run mem T) (.stopped i .killed)
  /-- a thread starts with a call of `f`, whose return address is at `p`, and with an empty shadow stack
  (C71: the wrapper around `pthread_create`) -/
  | spawn {mem : Mem} {T : Team} {i : Nat} {s : State} (f : Func) (p : W) : T i = none →
      Recorded (g i) [] s → Others needs g T i mem s.mem → TeamStep m frame snip needs g (.run mem T)
        (.run s.mem (setAt T i (some (.own s [⟨f, [], s.mem.read64 p, p⟩]))))
  | exit {mem : Mem} {T : Team} {i : Nat} {s : State} : T i = some (.own s []) →
      TeamStep m frame snip needs g (.run mem T) (.run mem (setAt T i none))

/-- Any number of steps of a process which begins without threads. -/
inductive TeamRun (m : ProgSem) (frame : Func → Reg) (snip : Func → Ev → Code → State → W → Prop)
    (needs : W → Worker → W → Prop) (g : Nat → W) : TeamProc → Prop
  | init (mem : Mem) : TeamRun m frame snip needs g (.run mem fun _ => none)
  | step {p q : TeamProc} : TeamRun m frame snip needs g p → TeamStep m frame snip needs g p q →
      TeamRun m frame snip needs g q

/-- On this way an activation of thread `i` with this return address has disappeared before its check. -/
def TeamLost (m : ProgSem) (ps : List TeamProc) (i : Nat) (v : W) : Prop :=
  Once (fun p q => ∃ mem mem' T T' w w' up, p = .run mem T ∧ q = .run mem' T' ∧ T i = some w ∧ T' i = some w' ∧
    w.acts = up ++ w'.acts ∧ ∃ x ∈ up, m.stacked x.func x.done ∧ v = x.ra) ps

/-- Every thread of the process is protected: whatever the threads do,

* at dangerous moments of a thread the return address of each of its activations that may return is in its
  shadow region or in the frame register;
* no return of any thread goes unchecked to anything but the caller;
* a check accepts only the caller's address, that of another activation of the thread between its push and
  its check, that of an activation of the thread which has disappeared between its push and its check in this
  very execution, or zero;
* no thread is killed if its innermost stored return address is what the caller stored when the check
  begins, unless the low half of an address in its shadow region is zero. -/
structure TeamProtected (m : ProgSem) (frame : Func → Reg)
    (snip : Func → Ev → Code → State → W → Prop) (needs : W → Worker → W → Prop) (g : Nat → W) : Prop where
  recorded : ∀ mem T i s a as, TeamRun m frame snip needs g (.run mem T) → T i = some (.own s (a :: as)) →
    m.danger a.func a.done → ∃ l, Recorded (g i) l (s.over mem) ∧
      ∀ x ∈ a :: as, ¬ m.stays x.func → x.ra ∈ l ∨ m.inReg x.func ∧ s.regs (frame x.func) = x.ra
  unchecked : ∀ i v, ¬ TeamRun m frame snip needs g (.stopped i (.hijacked v))
  accepted : ∀ mem0 mem T i ps v,
    Trail (TeamStep m frame snip needs g) (.run mem0 fun _ => none) (.run mem T :: ps) →
    TeamStep m frame snip needs g (.run mem T) (.stopped i (.diverted v)) →
    v = 0 ∨
      (∃ w, T i = some w ∧ ∃ x ∈ w.acts, m.stacked x.func x.done ∧ v = x.ra) ∨ TeamLost m (.run mem T :: ps) i v
  quiet : ∀ mem T i w a as l, TeamRun m frame snip needs g (.run mem T) → T i = some w → w.acts = a :: as →
    (w.base mem).mem.read64 a.at_ = a.ra → Recorded (g i) l (w.base mem) → (∀ v ∈ l, ¬ GuardLike v) →
    ¬ TeamStep m frame snip needs g (.run mem T) (.stopped i .killed)

/-! ## Attacks on other threads -/

/-- One step of a program with several threads, without machines: a step of one of them, or at a
dangerous moment of thread `i` the return addresses of thread `j` are overwritten. -/
inductive CStep (m : ProgSem) : (Nat → Proc) → (Nat → Proc) → Prop
  | own {T : Nat → Proc} {i : Nat} {q : Proc} : PStep m (T i) q → CStep m T (setAt T i q)
  | cross {T : Nat → Proc} {i j : Nat} {a : Act} {as bs bs' : List Act} {l l' : List W} :
      T i = .run (a :: as) l → m.danger a.func a.done → T j = .run bs l' → Overwritten bs bs' →
      CStep m T (setAt T j (.run bs' l'))

/-- Any number of steps. -/
inductive CRun (m : ProgSem) : (Nat → Proc) → (Nat → Proc) → Prop
  | refl (T : Nat → Proc) : CRun m T T
  | step {T U V : Nat → Proc} : CRun m T U → CStep m U V → CRun m T V

/-- Thread 0 has just been started with `f`, all others with `f'`. -/
def crew (f f' : Func) (ra ra' : W) : Nat → Proc := fun i =>
  if i = 0 then .run [⟨f, [], ra, ra, none⟩] [] else .run [⟨f', [], ra', ra', none⟩] []

end Verif
