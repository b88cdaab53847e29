import Verif.SignalProgram
import Verif.Multi

/-!
# Specification: instrumented programs with several threads and signal handlers

Threads as in `Verif.Multi`, which take turns after every instruction, and signals as in
`Verif.SignalProgram`.  A handler of the first kind is executed instruction by instruction like everything
else, while other threads go on, and may be interrupted in turn; what it interrupts waits until it returns.
Handlers of the second kind are functions of the program.
-/

namespace Verif

/-! ## Signals among other threads -/

/-- What the other threads do, seen from a thread which relies on its region and on the bytes in `K`. -/
structure Foreign (g : W) (K : W → Prop) (s s' : State) : Prop where
  regs : s'.regs = s.regs
  flags : s'.flags = s.flags
  gs : s'.gs = s.gs
  region : ∀ x, InRange x g regionSize → s'.mem x = s.mem x
  keeps : ∀ x, K x → s'.mem x = s.mem x

/-- The signals of `Handled`, where also other threads change memory at any time. -/
def Among (own : W → Prop) (g : W) : Nat → Sigs
  | 0 => ⟨Foreign g, fun _ _ => False⟩
  | n + 1 =>
    { back := fun K s s' => (∃ s1 s2, Entered g s s1 ∧
        SigRun (Among own g n) BeforePointer own g (.run s1 [] none) (.run s2 [] none) ∧ Resumed K s s2 s') ∨
        Foreign g K s s'
      away := fun s s' => ∃ s1 s2 q leaf, Entered g s s1 ∧
        SigRun (Among own g n) BeforePointer own g (.run s1 [] none) (.run s2 q leaf) ∧ Jumped g s2 s' }

/-! ## Handlers in execution -/

/-- A snippet of a handler: it began in the state `start` with these calls in progress, `p` and `leaf` as in
`Conf`, and these are in progress when it has come to its end.  `kept` are those which remain if it is left by
a jump, `K` the bytes it relies on. -/
structure Job where
  code : Code
  start : State
  p : List W
  leaf : Option (Reg × W)
  p' : List W
  leaf' : Option (Reg × W)
  kept : List W
  K : W → Prop
  fits : Code → State → Prop

/-- The snippets of an honest handler whose calls are made from places in `own`, as in `SigStep`. -/
inductive Job.Ok (own : W → Prop) (g : W) : Job → Prop
  | call {s : State} {p : List W} {code : Code} {d : Int} {n : Nat} {free : Reg → Prop} :
      IsPush code d n free → Apart g (s.retAddr d) n s → own (s.mem.read64 (s.retAddr d)) →
      Job.Ok own g ⟨code, s, p, none, s.mem.read64 (s.retAddr d) :: p, none, p,
        Relies (s.retAddr d) (s.regs .rsp) n, RoomFor g⟩
  | ret {s : State} {ra : W} {p : List W} {code : Code} {d : Int} {n : Nat} {free : Reg → Prop} :
      IsCheck code d n free → Apart g (s.retAddr d) n s → s.mem.read64 (s.retAddr d) = ra →
      Job.Ok own g ⟨code, s, ra :: p, none, p, none, p, Relies (s.retAddr d) (s.regs .rsp) n, fun _ _ => True⟩
  | enter {s : State} {p : List W} {code : Code} {reg : Reg} {d : Int} :
      IsRegPush code reg d → Sep (s.retAddr d) 8 g regionSize →
      Job.Ok own g ⟨code, s, p, none, p, some (reg, s.mem.read64 (s.retAddr d)), p,
        Relies (s.retAddr d) (s.regs .rsp) 0, fun _ _ => True⟩
  | leave {s : State} {ra : W} {p : List W} {code : Code} {reg : Reg} :
      IsRegPop code reg → s.mem.read64 (s.regs .rsp) = ra →
      Job.Ok own g ⟨code, s, p, some (reg, ra), p, none, p, Relies (s.regs .rsp) (s.regs .rsp) 0,
        fun _ _ => True⟩

/-- What a handler is doing.  The memory of `s` does not count. -/
inductive Handler
  | idle (s : State) (p : List W) (leaf : Option (Reg × W))
  /-- `k` is left of the snippet -/
  | busy (j : Job) (k : Code) (s : State)

/-- The handler's own state. -/
def Handler.state : Handler → State
  | .idle s _ _ => s
  | .busy _ _ s => s

/-- The bytes the handler relies on, but for the shadow region. -/
def Handler.keeps : Handler → W → Prop
  | .idle _ _ _, _ => False
  | .busy j _ _, x => j.K x

/-- The handler is where another one must leave the region alone. -/
def Handler.shut : Handler → Prop
  | .idle _ _ _ => False
  | .busy _ k _ => BeforePointer k

/-- The calls in progress to which a jump may go. -/
def Handler.kept : Handler → List W
  | .idle _ p _ => p
  | .busy j _ _ => j.kept

/-- The program's own state. -/
def Worker.state : Worker → State
  | .own s _ => s
  | .busy _ _ _ _ s _ _ => s

/-- The bytes the program relies on while it is interrupted, but for the shadow region. -/
def Worker.keeps : Worker → W → Prop
  | .own _ acts, x => Slot acts x
  | .busy _ _ _ s0 _ a as, x => Needed (a :: as) s0 x

/-- The program is where a handler must leave the region alone. -/
def Worker.shut (g : W) (mem : Mem) : Worker → Prop
  | .own _ _ => False
  | .busy _ k _ _ _ _ _ => BeforePointer k ∨ mem.read64 g = g + BitVec.ofNat 64 24

/-! ## Threads -/

/-- A thread: what its program is doing, and the handlers, the innermost first.  All but the innermost wait. -/
structure Crew where
  prog : Worker
  hands : List Handler

/-- The registers of what is being executed. -/
def Crew.state (c : Crew) : State :=
  match c.hands with
  | [] => c.prog.state
  | h :: _ => h.state

/-- What a thread relies on, but for the shadow region. -/
def Crew.keeps (c : Crew) (x : W) : Prop := c.prog.keeps x ∨ ∃ h ∈ c.hands, h.keeps x

/-- One of those interrupted is inside a snippet whose entries must not be touched. -/
def Crew.shut (g : W) (mem : Mem) (c : Crew) : Prop := c.prog.shut g mem ∨ ∃ h ∈ c.hands, h.shut

/-- What is interrupted does not notice this change of memory, unless by entries on the shadow stack. -/
structure Crew.Unharmed (c : Crew) (g : W) (mem mem' : Mem) : Prop where
  keeps : ∀ x, c.keeps x → mem' x = mem x
  shut : c.shut g mem → ∀ x, InRange x g regionSize → mem' x = mem x

section
variable (m : ProgSem) (frame : Func → Reg) (snip : Func → Ev → Code → State → W → Prop)

/-- One step of a thread whose shadow region is at `g`.  At most `depth` handlers of the first kind are in
execution. -/
inductive CrewStep (own : W → Prop) (depth : Nat) (g : W) : Mem → Crew → Mem → Crew → Prop
  | own {mem : Mem} {s s' : State} {acts acts' : List XAct} :
      threadStep m frame snip g (.run (s.over mem) acts) (.run s' acts') →
      CrewStep own depth g mem ⟨.own s acts, []⟩ s'.mem ⟨.own s' acts', []⟩
  | begin {mem : Mem} {s : State} {a : XAct} {as : List XAct} {ev : Ev} {code : Code} :
      m.trace a.func (a.done ++ [ev]) → snip a.func ev code (s.over mem) a.at_ →
      Clear g (a :: as) 16 (s.over mem) →
      CrewStep own depth g mem ⟨.own s (a :: as), []⟩ mem ⟨.busy code code ev (s.over mem) s a as, []⟩
  | instr {mem : Mem} {w k k' : Code} {ev : Ev} {s0 s s' : State} {a : XAct} {as : List XAct} :
      (ev = .push → RoomFor g k (s.over mem)) → Go w k (s.over mem) k' s' →
      CrewStep own depth g mem ⟨.busy w k ev s0 s a as, []⟩ s'.mem ⟨.busy w k' ev s0 s' a as, []⟩
  | finish {mem : Mem} {w : Code} {ev : Ev} {s0 s : State} {a : XAct} {as : List XAct} :
      (ev = .check → s0.mem.read64 a.at_ = a.ra) →
      CrewStep own depth g mem ⟨.busy w [] ev s0 s a as, []⟩ mem
        ⟨.own s ({ a with done := a.done ++ [ev] } :: as), []⟩
  /-- a signal: what was being executed is interrupted, and a handler starts -/
  | signal {mem : Mem} {c : Crew} {s1 : State} : c.hands.length < depth → c.prog.acts ≠ [] →
      Entered g (c.state.over mem) s1 → c.Unharmed g mem s1.mem →
      CrewStep own depth g mem c s1.mem ⟨c.prog, .idle s1 [] none :: c.hands⟩
  | work {mem : Mem} {w : Worker} {hs : List Handler} {s s' : State} {p : List W} {leaf : Option (Reg × W)} :
      s'.gs = s.gs → (∀ x, InRange x g regionSize → s'.mem x = mem x) →
      (∀ r v, leaf = some (r, v) → s'.regs r = s.regs r) → Crew.Unharmed ⟨w, hs⟩ g mem s'.mem →
      CrewStep own depth g mem ⟨w, .idle s p leaf :: hs⟩ s'.mem ⟨w, .idle s' p leaf :: hs⟩
  | unwind {mem : Mem} {w : Worker} {hs : List Handler} {s : State} {p : List W} {leaf : Option (Reg × W)}
      (n : Nat) : CrewStep own depth g mem ⟨w, .idle s p leaf :: hs⟩ mem ⟨w, .idle s (p.drop n) none :: hs⟩
  /-- a snippet of the handler begins -/
  | beginH {mem : Mem} {w : Worker} {hs : List Handler} {s : State} {j : Job} : j.Ok own g →
      j.start = s.over mem →
      CrewStep own depth g mem ⟨w, .idle s j.p j.leaf :: hs⟩ mem ⟨w, .busy j j.code s :: hs⟩
  | instrH {mem : Mem} {w : Worker} {hs : List Handler} {j : Job} {k k' : Code} {s s' : State} :
      j.fits k (s.over mem) → Go j.code k (s.over mem) k' s' → Crew.Unharmed ⟨w, hs⟩ g mem s'.mem →
      CrewStep own depth g mem ⟨w, .busy j k s :: hs⟩ s'.mem ⟨w, .busy j k' s' :: hs⟩
  | finishH {mem : Mem} {w : Worker} {hs : List Handler} {j : Job} {s : State} :
      CrewStep own depth g mem ⟨w, .busy j [] s :: hs⟩ mem ⟨w, .idle s j.p' j.leaf' :: hs⟩
  /-- the handler returns, and what it has interrupted goes on -/
  | resume {mem : Mem} {w : Worker} {hs : List Handler} {s : State} :
      CrewStep own depth g mem ⟨w, .idle s [] none :: hs⟩ mem ⟨w, hs⟩
  /-- the handler jumps to a call of the handler which it has interrupted -/
  | jump {mem : Mem} {w : Worker} {h : Handler} {hs : List Handler} {s s' : State} {p : List W}
      {leaf : Option (Reg × W)} (n : Nat) : Jumped g (s.over mem) s' → Crew.Unharmed ⟨w, hs⟩ g mem s'.mem →
      CrewStep own depth g mem ⟨w, .idle s p leaf :: h :: hs⟩ s'.mem ⟨w, .idle s' (h.kept.drop n) none :: hs⟩
  /-- the handler jumps to an activation of the program, but not the innermost -/
  | leave {mem : Mem} {s0 s s' : State} {p : List W} {leaf : Option (Reg × W)} {u : XAct} {up : List XAct}
      {a : XAct} {as : List XAct} : Jumped g (s.over mem) s' → (∀ x, Slot (a :: as) x → s'.mem x = mem x) →
      CrewStep own depth g mem ⟨.own s0 (u :: up ++ a :: as), [.idle s p leaf]⟩ s'.mem ⟨.own s' (a :: as), []⟩
  | escape {mem : Mem} {w k : Code} {ev : Ev} {s0 t s s' : State} {p : List W} {leaf : Option (Reg × W)} {a : XAct}
      {up : List XAct} {b : XAct} {bs : List XAct} : Jumped g (s.over mem) s' →
      (ev = .check → s0.mem.read64 a.at_ = a.ra ∧ ∀ l, Recorded g l s0 → ∀ v ∈ l, ¬ GuardLike v) →
      SameSlots (b :: bs) s0 s' →
      CrewStep own depth g mem ⟨.busy w k ev s0 t a (up ++ b :: bs), [.idle s p leaf]⟩ s'.mem
        ⟨.own s' (b :: bs), []⟩

/-- A thread comes to an end in this way. -/
inductive CrewStop (g : W) : Mem → Crew → XProc → Prop
  | own {mem : Mem} {s : State} {acts : List XAct} {q : XProc} :
      threadStep m frame snip g (.run (s.over mem) acts) q → (∀ s' acts', q ≠ .run s' acts') →
      CrewStop g mem ⟨.own s acts, []⟩ q
  | accept {mem : Mem} {w : Code} {s0 s : State} {a : XAct} {as : List XAct} :
      s0.mem.read64 a.at_ ≠ a.ra →
      CrewStop g mem ⟨.busy w [] .check s0 s a as, []⟩ (.diverted (s0.mem.read64 a.at_))
  | trap {mem : Mem} {w k : Code} {ins : Instr} {ev : Ev} {s0 s s' : State} {a : XAct} {as : List XAct} :
      exec ins (s.over mem) = .trap s' → CrewStop g mem ⟨.busy w (ins :: k) ev s0 s a as, []⟩ .killed
  | trapH {mem : Mem} {w : Worker} {hs : List Handler} {j : Job} {k : Code} {ins : Instr} {s s' : State} :
      exec ins (s.over mem) = .trap s' → CrewStop g mem ⟨w, .busy j (ins :: k) s :: hs⟩ .killed

/-! ## Processes -/

/-- A process. -/
inductive CrewsProc
  | run (mem : Mem) (T : Nat → Option Crew)
  /-- stopped by what became of this thread -/
  | stopped (i : Nat) (q : XProc)

/-- The change of memory spares what the threads other than `i` rely on. -/
def Apiece (g : Nat → W) (T : Nat → Option Crew) (i : Nat) (mem mem' : Mem) : Prop :=
  ∀ j c, j ≠ i → T j = some c → ∀ x, InRange x (g j) regionSize ∨ c.keeps x → mem' x = mem x

/-- One step of a process.  The shadow region of thread `i` is at `g i`, and threads leave alone what the
others rely on. -/
inductive CrewsStep (own : W → Prop) (depth : Nat) (g : Nat → W) : CrewsProc → CrewsProc → Prop
  | step {mem mem' : Mem} {T : Nat → Option Crew} {i : Nat} {c c' : Crew} : T i = some c →
      CrewStep m frame snip own depth (g i) mem c mem' c' → Apiece g T i mem mem' →
      CrewsStep own depth g (.run mem T) (.run mem' (setAt T i (some c')))
  | stop {mem : Mem} {T : Nat → Option Crew} {i : Nat} {c : Crew} {q : XProc} : T i = some c →
      CrewStop m frame snip (g i) mem c q → CrewsStep own depth g (.run mem T) (.stopped i q)
  /-- a thread starts with a call of `f`, whose return address is at `p`, and with an empty shadow stack
  (C71: the wrapper around `pthread_create`) -/
  | spawn {mem : Mem} {T : Nat → Option Crew} {i : Nat} {s : State} (f : Func) (p : W) : T i = none →
      Recorded (g i) [] s → Apiece g T i mem s.mem → CrewsStep own depth g (.run mem T)
        (.run s.mem (setAt T i (some ⟨.own s [⟨f, [], s.mem.read64 p, p⟩], []⟩)))
  | exit {mem : Mem} {T : Nat → Option Crew} {i : Nat} {s : State} : T i = some ⟨.own s [], []⟩ →
      CrewsStep own depth g (.run mem T) (.run mem (setAt T i none))

/-- On this way an activation of thread `i` with this return address has disappeared before its check. -/
def CrewsLost (ps : List CrewsProc) (i : Nat) (v : W) : Prop :=
  Once (fun p q => ∃ mem mem' T T' c c' up, p = .run mem T ∧ q = .run mem' T' ∧ T i = some c ∧ T' i = some c' ∧
    c.prog.acts = up ++ c'.prog.acts ∧ ∃ x ∈ up, m.stacked x.func x.done ∧ v = x.ra) ps

/-- On this way an activation of thread `i` with this return address has disappeared while its push was due, or
being executed. -/
def CrewsCut (ps : List CrewsProc) (i : Nat) (v : W) : Prop :=
  Once (fun p q => ∃ mem mem' T T' c c' a up, p = .run mem T ∧ q = .run mem' T' ∧ T i = some c ∧ T' i = some c' ∧
    c.prog.acts = a :: up ++ c'.prog.acts ∧ m.trace a.func (a.done ++ [.push]) ∧ ¬ m.inReg a.func ∧ v = a.ra) ps

/-- Every thread of the process is protected, as `TeamProtected` says, but a check may also accept an address in
`own`, to which the handlers return, and that of an activation whose push has been left by a jump.  No handler
is killed which has interrupted the program outside of its snippets. -/
structure CrewsProtected (own : W → Prop) (depth : Nat) (g : Nat → W) : Prop where
  recorded : ∀ mem0 mem T ps i s a as,
    Trail (CrewsStep m frame snip own depth g) (.run mem0 fun _ => none) (.run mem T :: ps) →
    T i = some ⟨.own s (a :: as), []⟩ → m.danger a.func a.done → ∃ l, Recorded (g i) l (s.over mem) ∧
      ∀ x ∈ a :: as, ¬ m.stays x.func → x.ra ∈ l ∨ m.inReg x.func ∧ s.regs (frame x.func) = x.ra
  unchecked : ∀ mem0 ps i v,
    ¬ Trail (CrewsStep m frame snip own depth g) (.run mem0 fun _ => none) (.stopped i (.hijacked v) :: ps)
  accepted : ∀ mem0 mem T ps i v,
    Trail (CrewsStep m frame snip own depth g) (.run mem0 fun _ => none) (.run mem T :: ps) →
    CrewsStep m frame snip own depth g (.run mem T) (.stopped i (.diverted v)) → v = 0 ∨
      (∃ c, T i = some c ∧ ∃ x ∈ c.prog.acts, m.stacked x.func x.done ∧ v = x.ra) ∨
      CrewsLost m (.run mem T :: ps) i v ∨ CrewsCut m (.run mem T :: ps) i v ∨ own v
  quiet : ∀ mem0 mem T ps i c a as l,
    Trail (CrewsStep m frame snip own depth g) (.run mem0 fun _ => none) (.run mem T :: ps) →
    T i = some c → c.prog.acts = a :: as → (c.prog.base mem).mem.read64 a.at_ = a.ra →
    Recorded (g i) l (c.prog.base mem) → (∀ v ∈ l, ¬ GuardLike v) →
    ¬ CrewsStep m frame snip own depth g (.run mem T) (.stopped i .killed)
  handlers : ∀ mem0 mem T ps i s acts h hs,
    Trail (CrewsStep m frame snip own depth g) (.run mem0 fun _ => none) (.run mem T :: ps) →
    T i = some ⟨.own s acts, h :: hs⟩ → ¬ CrewsStep m frame snip own depth g (.run mem T) (.stopped i .killed)

end

end Verif
