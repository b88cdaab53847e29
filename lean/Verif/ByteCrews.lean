import Verif.SignalTeam
import Verif.ByteTeam

/-!
# Specification: protected programs in memory, with threads and signal handlers

As `Verif.SignalTeam`, but the snippets of the program and of the handlers are bytes in the text of the
instrumented program, as in `Verif.ByteTeam`.  A signal may arrive in front of any machine instruction.
-/

namespace Verif

/-! ## Places in snippets -/

/-- At `x` stands an instruction which loads the shadow pointer. -/
def LoadsPointer (text : W → Byte) (x : W) : Prop := ∃ r n, decode (window text x) = some (.plain (.loadGs r 0), n)

/-- The next instruction at `x` is the `lea` of a push, or the store of the pointer behind it: this stands at the
end `e` of a snippet, or a register is restored thereafter.  See `BeforePointer`. -/
inductive BeforeMove (text : W → Byte) (e : W) (x : W) : Prop
  | lea {r b : Reg} {n : Nat} : decode (window text x) = some (.plain (.lea r b 8), n) → BeforeMove text e x
  | pop {r r' : Reg} {n n' : Nat} : decode (window text x) = some (.plain (.storeGs 0 r), n) →
      decode (window text (x + BitVec.ofNat 64 n)) = some (.plain (.pop r'), n') → BeforeMove text e x
  | last {r : Reg} {n : Nat} : decode (window text x) = some (.plain (.storeGs 0 r), n) →
      x + BitVec.ofNat 64 n = e → BeforeMove text e x

/-- `rip` is at such an instruction of the `n` bytes at `b`. -/
def Poised (text : W → Byte) (b : W) (n : Nat) (x : W) : Prop :=
  Inside b n x ∧ BeforeMove text (b + BitVec.ofNat 64 n) x

/-! ## Handlers in execution -/

/-- What a handler is doing.  The memory of `s` does not count. -/
inductive Hand
  | idle (s : State) (p : List W) (leaf : Option (Reg × W))
  /-- `rip` is `x`, in the `n` bytes at `b` -/
  | busy (j : Job) (b : W) (n : Nat) (x : W) (s : State)

/-- The snippet records a call. -/
def Job.records (j : Job) : Prop := j.p'.length = j.p.length + 1

/-- The handler's own state. -/
def Hand.state : Hand → State
  | .idle s _ _ => s
  | .busy _ _ _ _ s => s

/-- The bytes the handler relies on, but for the shadow region. -/
def Hand.keeps : Hand → W → Prop
  | .idle _ _ _, _ => False
  | .busy j _ _ _ _, x => j.K x

/-- The handler is where another one must leave the region alone. -/
def Hand.shut (text : W → Byte) : Hand → Prop
  | .idle _ _ _ => False
  | .busy _ b n x _ => Poised text b n x

/-- The calls in progress to which a jump may go. -/
def Hand.kept : Hand → List W
  | .idle _ p _ => p
  | .busy j _ _ _ _ => j.kept

/-- The program's own state. -/
def Task.state : Task → State
  | .own s _ => s
  | .busy _ _ _ _ _ s _ _ => s

/-- The bytes the program relies on while it is interrupted, but for the shadow region. -/
def Task.keeps : Task → W → Prop
  | .own _ acts, x => Slot acts x
  | .busy _ _ _ _ s0 _ a as, x => Needed (a :: as) s0 x

/-- The program is where a handler must leave the region alone. -/
def Task.shut (text : W → Byte) (g : W) (mem : Mem) : Task → Prop
  | .own _ _ => False
  | .busy b n x _ _ _ _ _ => Poised text b n x ∨ mem.read64 g = g + BitVec.ofNat 64 24

/-! ## Threads -/

/-- A thread: what its program is doing, and the handlers, the innermost first.  All but the innermost wait. -/
structure Gang where
  prog : Task
  hands : List Hand

/-- The registers of what is being executed. -/
def Gang.state (c : Gang) : State :=
  match c.hands with
  | [] => c.prog.state
  | h :: _ => h.state

/-- What a thread relies on, but for the shadow region. -/
def Gang.keeps (c : Gang) (x : W) : Prop := c.prog.keeps x ∨ ∃ h ∈ c.hands, h.keeps x

/-- One of those interrupted is inside a snippet whose entries must not be touched. -/
def Gang.shut (text : W → Byte) (g : W) (mem : Mem) (c : Gang) : Prop :=
  c.prog.shut text g mem ∨ ∃ h ∈ c.hands, h.shut text

/-- What is interrupted does not notice this change of memory, unless by entries on the shadow stack. -/
structure Gang.Unharmed (text : W → Byte) (c : Gang) (g : W) (mem mem' : Mem) : Prop where
  keeps : ∀ x, c.keeps x → mem' x = mem x
  shut : c.shut text g mem → ∀ x, InRange x g regionSize → mem' x = mem x

section
variable (m : ProgSem) (frame : Func → Reg) (snip : Func → Ev → Code → State → W → Prop) (avx : Bool)
  (text : W → Byte)

/-- One step of a thread whose shadow region is at `g`.  At most `depth` handlers of the first kind are in
execution. -/
inductive GangStep (own : W → Prop) (depth : Nat) (g : W) : Mem → Gang → Mem → Gang → Prop
  /-- outside of snippets -/
  | own {mem : Mem} {s s' : State} {acts acts' : List XAct} :
      threadStep m frame (fun _ _ _ _ _ => False) g (.run (s.over mem) acts) (.run s' acts') →
      GangStep own depth g mem ⟨.own s acts, []⟩ s'.mem ⟨.own s' acts', []⟩
  /-- the program comes to the bytes of a snippet -/
  | begin {mem : Mem} {s : State} {a : XAct} {as : List XAct} {ev : Ev} {code : Code} {b : W} {n : Nat} :
      m.trace a.func (a.done ++ [ev]) → snip a.func ev code (s.over mem) a.at_ → Inserted text code b n →
      Clear g (a :: as) 16 (s.over mem) →
      GangStep own depth g mem ⟨.own s (a :: as), []⟩ mem ⟨.busy b n b ev (s.over mem) s a as, []⟩
  /-- one instruction -/
  | instr {mem : Mem} {b : W} {n : Nat} {x x' : W} {ev : Ev} {s0 s s' : State} {a : XAct} {as : List XAct} :
      (ev = .push → LoadsPointer text x → HasRoom g (s.over mem)) → Inside b n x →
      executeAt avx text x (s.over mem) = .next x' s' → Inside b n x' ∨ x' = b + BitVec.ofNat 64 n →
      GangStep own depth g mem ⟨.busy b n x ev s0 s a as, []⟩ s'.mem ⟨.busy b n x' ev s0 s' a as, []⟩
  /-- the program comes behind the bytes -/
  | finish {mem : Mem} {b : W} {n : Nat} {ev : Ev} {s0 s : State} {a : XAct} {as : List XAct} :
      (ev = .check → s0.mem.read64 a.at_ = a.ra) →
      GangStep own depth g mem ⟨.busy b n (b + BitVec.ofNat 64 n) ev s0 s a as, []⟩ mem
        ⟨.own s ({ a with done := a.done ++ [ev] } :: as), []⟩
  /-- a signal: what was being executed is interrupted, and a handler starts -/
  | signal {mem : Mem} {c : Gang} {s1 : State} : c.hands.length < depth → c.prog.acts ≠ [] →
      Entered g (c.state.over mem) s1 → c.Unharmed text g mem s1.mem →
      GangStep own depth g mem c s1.mem ⟨c.prog, .idle s1 [] none :: c.hands⟩
  | work {mem : Mem} {w : Task} {hs : List Hand} {s s' : State} {p : List W} {leaf : Option (Reg × W)} :
      s'.gs = s.gs → (∀ x, InRange x g regionSize → s'.mem x = mem x) →
      (∀ r v, leaf = some (r, v) → s'.regs r = s.regs r) → Gang.Unharmed text ⟨w, hs⟩ g mem s'.mem →
      GangStep own depth g mem ⟨w, .idle s p leaf :: hs⟩ s'.mem ⟨w, .idle s' p leaf :: hs⟩
  | unwind {mem : Mem} {w : Task} {hs : List Hand} {s : State} {p : List W} {leaf : Option (Reg × W)}
      (n : Nat) : GangStep own depth g mem ⟨w, .idle s p leaf :: hs⟩ mem ⟨w, .idle s (p.drop n) none :: hs⟩
  /-- the handler comes to the bytes of a snippet -/
  | beginH {mem : Mem} {w : Task} {hs : List Hand} {s : State} {j : Job} {b : W} {n : Nat} : j.Ok own g →
      j.start = s.over mem → Inserted text j.code b n →
      GangStep own depth g mem ⟨w, .idle s j.p j.leaf :: hs⟩ mem ⟨w, .busy j b n b s :: hs⟩
  | instrH {mem : Mem} {w : Task} {hs : List Hand} {j : Job} {b : W} {n : Nat} {x x' : W} {s s' : State} :
      (j.records → LoadsPointer text x → HasRoom g (s.over mem)) → Inside b n x →
      executeAt avx text x (s.over mem) = .next x' s' → Inside b n x' ∨ x' = b + BitVec.ofNat 64 n →
      Gang.Unharmed text ⟨w, hs⟩ g mem s'.mem →
      GangStep own depth g mem ⟨w, .busy j b n x s :: hs⟩ s'.mem ⟨w, .busy j b n x' s' :: hs⟩
  | finishH {mem : Mem} {w : Task} {hs : List Hand} {j : Job} {b : W} {n : Nat} {s : State} :
      GangStep own depth g mem ⟨w, .busy j b n (b + BitVec.ofNat 64 n) s :: hs⟩ mem
        ⟨w, .idle s j.p' j.leaf' :: hs⟩
  /-- the handler returns, and what it has interrupted goes on -/
  | resume {mem : Mem} {w : Task} {hs : List Hand} {s : State} :
      GangStep own depth g mem ⟨w, .idle s [] none :: hs⟩ mem ⟨w, hs⟩
  /-- the handler jumps to a call of the handler which it has interrupted -/
  | jump {mem : Mem} {w : Task} {h : Hand} {hs : List Hand} {s s' : State} {p : List W}
      {leaf : Option (Reg × W)} (n : Nat) : Jumped g (s.over mem) s' → Gang.Unharmed text ⟨w, hs⟩ g mem s'.mem →
      GangStep own depth g mem ⟨w, .idle s p leaf :: h :: hs⟩ s'.mem ⟨w, .idle s' (h.kept.drop n) none :: hs⟩
  /-- the handler jumps to an activation of the program, but not the innermost -/
  | leave {mem : Mem} {s0 s s' : State} {p : List W} {leaf : Option (Reg × W)} {u : XAct} {up : List XAct}
      {a : XAct} {as : List XAct} : Jumped g (s.over mem) s' → (∀ x, Slot (a :: as) x → s'.mem x = mem x) →
      GangStep own depth g mem ⟨.own s0 (u :: up ++ a :: as), [.idle s p leaf]⟩ s'.mem ⟨.own s' (a :: as), []⟩
  | escape {mem : Mem} {b : W} {n : Nat} {x : W} {ev : Ev} {s0 t s s' : State} {p : List W}
      {leaf : Option (Reg × W)} {a : XAct} {up : List XAct} {c : XAct} {cs : List XAct} : Jumped g (s.over mem) s' →
      (ev = .check → s0.mem.read64 a.at_ = a.ra ∧ ∀ l, Recorded g l s0 → ∀ v ∈ l, ¬ GuardLike v) →
      SameSlots (c :: cs) s0 s' →
      GangStep own depth g mem ⟨.busy b n x ev s0 t a (up ++ c :: cs), [.idle s p leaf]⟩ s'.mem
        ⟨.own s' (c :: cs), []⟩

/-- A thread comes to an end in this way. -/
inductive GangStop (g : W) : Mem → Gang → XProc → Prop
  | own {mem : Mem} {s : State} {acts : List XAct} {q : XProc} :
      threadStep m frame (fun _ _ _ _ _ => False) g (.run (s.over mem) acts) q → (∀ s' acts', q ≠ .run s' acts') →
      GangStop g mem ⟨.own s acts, []⟩ q
  /-- behind the bytes of a check, although the return address had been changed -/
  | accept {mem : Mem} {b : W} {n : Nat} {s0 s : State} {a : XAct} {as : List XAct} :
      s0.mem.read64 a.at_ ≠ a.ra →
      GangStop g mem ⟨.busy b n (b + BitVec.ofNat 64 n) .check s0 s a as, []⟩ (.diverted (s0.mem.read64 a.at_))
  | sigill {mem : Mem} {b : W} {n : Nat} {x : W} {ev : Ev} {s0 s s' : State} {a : XAct} {as : List XAct} :
      Inside b n x → executeAt avx text x (s.over mem) = .sigill s' →
      GangStop g mem ⟨.busy b n x ev s0 s a as, []⟩ .killed
  | sigillH {mem : Mem} {w : Task} {hs : List Hand} {j : Job} {b : W} {n : Nat} {x : W} {s s' : State} :
      Inside b n x → executeAt avx text x (s.over mem) = .sigill s' →
      GangStop g mem ⟨w, .busy j b n x s :: hs⟩ .killed

/-- In these bytes, the next instruction leads elsewhere than to their end, or is none of a snippet. -/
def Astray (mem : Mem) (b : W) (n : Nat) (x : W) (s : State) : Prop :=
  Inside b n x ∧ (executeAt avx text x (s.over mem) = .unlisted ∨ ∃ x' s',
    executeAt avx text x (s.over mem) = .next x' s' ∧ ¬ Inside b n x' ∧ x' ≠ b + BitVec.ofNat 64 n)

/-- A thread is about to leave a snippet so. -/
inductive GangStray (mem : Mem) : Gang → Prop
  | prog {b : W} {n : Nat} {x : W} {ev : Ev} {s0 s : State} {a : XAct} {as : List XAct} :
      Astray avx text mem b n x s → GangStray mem ⟨.busy b n x ev s0 s a as, []⟩
  | hand {w : Task} {hs : List Hand} {j : Job} {b : W} {n : Nat} {x : W} {s : State} :
      Astray avx text mem b n x s → GangStray mem ⟨w, .busy j b n x s :: hs⟩

/-! ## Processes -/

/-- A process. -/
inductive GangsProc
  | run (mem : Mem) (T : Nat → Option Gang)
  /-- stopped by what became of this thread -/
  | stopped (i : Nat) (q : XProc)
  | strayed (i : Nat)

/-- The change of memory spares what the threads other than `i` rely on. -/
def Gang.Others (g : Nat → W) (T : Nat → Option Gang) (i : Nat) (mem mem' : Mem) : Prop :=
  ∀ j c, j ≠ i → T j = some c → ∀ x, InRange x (g j) regionSize ∨ c.keeps x → mem' x = mem x

/-- One step of a process.  The shadow region of thread `i` is at `g i`, and threads leave alone what the
others rely on. -/
inductive GangsStep (own : W → Prop) (depth : Nat) (g : Nat → W) : GangsProc → GangsProc → Prop
  | step {mem mem' : Mem} {T : Nat → Option Gang} {i : Nat} {c c' : Gang} : T i = some c →
      GangStep m frame snip avx text own depth (g i) mem c mem' c' → Gang.Others g T i mem mem' →
      GangsStep own depth g (.run mem T) (.run mem' (setAt T i (some c')))
  | stop {mem : Mem} {T : Nat → Option Gang} {i : Nat} {c : Gang} {q : XProc} : T i = some c →
      GangStop m frame avx text (g i) mem c q → GangsStep own depth g (.run mem T) (.stopped i q)
  | stray {mem : Mem} {T : Nat → Option Gang} {i : Nat} {c : Gang} : T i = some c →
      GangStray avx text mem c → GangsStep own depth g (.run mem T) (.strayed i)
  /-- a thread starts with a call of `f`, whose return address is at `p`, and with an empty shadow stack
  (C71: the wrapper around `pthread_create`) -/
  | spawn {mem : Mem} {T : Nat → Option Gang} {i : Nat} {s : State} (f : Func) (p : W) : T i = none →
      Recorded (g i) [] s → Gang.Others g T i mem s.mem → GangsStep own depth g (.run mem T)
        (.run s.mem (setAt T i (some ⟨.own s [⟨f, [], s.mem.read64 p, p⟩], []⟩)))
  | exit {mem : Mem} {T : Nat → Option Gang} {i : Nat} {s : State} : T i = some ⟨.own s [], []⟩ →
      GangsStep own depth g (.run mem T) (.run mem (setAt T i none))

/-- On this way an activation of thread `i` with this return address has disappeared before its check. -/
def GangsLost (ps : List GangsProc) (i : Nat) (v : W) : Prop :=
  Once (fun p q => ∃ mem mem' T T' c c' up, p = .run mem T ∧ q = .run mem' T' ∧ T i = some c ∧ T' i = some c' ∧
    c.prog.acts = up ++ c'.prog.acts ∧ ∃ x ∈ up, m.stacked x.func x.done ∧ v = x.ra) ps

/-- On this way an activation of thread `i` with this return address has disappeared while its push was due, or
being executed. -/
def GangsCut (ps : List GangsProc) (i : Nat) (v : W) : Prop :=
  Once (fun p q => ∃ mem mem' T T' c c' a up, p = .run mem T ∧ q = .run mem' T' ∧ T i = some c ∧ T' i = some c' ∧
    c.prog.acts = a :: up ++ c'.prog.acts ∧ m.trace a.func (a.done ++ [.push]) ∧ ¬ m.inReg a.func ∧ v = a.ra) ps

/-- Every thread of the process is protected, as `CrewsProtected` says, and neither the program nor a handler
leaves the bytes of a snippet elsewhere than at their end. -/
structure GangsProtected (own : W → Prop) (depth : Nat) (g : Nat → W) : Prop where
  recorded : ∀ mem0 mem T ps i s a as,
    Trail (GangsStep m frame snip avx text own depth g) (.run mem0 fun _ => none) (.run mem T :: ps) →
    T i = some ⟨.own s (a :: as), []⟩ → m.danger a.func a.done → ∃ l, Recorded (g i) l (s.over mem) ∧
      ∀ x ∈ a :: as, ¬ m.stays x.func → x.ra ∈ l ∨ m.inReg x.func ∧ s.regs (frame x.func) = x.ra
  unchecked : ∀ mem0 ps i v, ¬ Trail (GangsStep m frame snip avx text own depth g) (.run mem0 fun _ => none)
    (.stopped i (.hijacked v) :: ps)
  accepted : ∀ mem0 mem T ps i v,
    Trail (GangsStep m frame snip avx text own depth g) (.run mem0 fun _ => none) (.run mem T :: ps) →
    GangsStep m frame snip avx text own depth g (.run mem T) (.stopped i (.diverted v)) → v = 0 ∨
      (∃ c, T i = some c ∧ ∃ x ∈ c.prog.acts, m.stacked x.func x.done ∧ v = x.ra) ∨
      GangsLost m (.run mem T :: ps) i v ∨ GangsCut m (.run mem T :: ps) i v ∨ own v
  quiet : ∀ mem0 mem T ps i c a as l,
    Trail (GangsStep m frame snip avx text own depth g) (.run mem0 fun _ => none) (.run mem T :: ps) →
    T i = some c → c.prog.acts = a :: as → (c.prog.base mem).mem.read64 a.at_ = a.ra →
    Recorded (g i) l (c.prog.base mem) → (∀ v ∈ l, ¬ GuardLike v) →
    ¬ GangsStep m frame snip avx text own depth g (.run mem T) (.stopped i .killed)
  handlers : ∀ mem0 mem T ps i s acts h hs,
    Trail (GangsStep m frame snip avx text own depth g) (.run mem0 fun _ => none) (.run mem T :: ps) →
    T i = some ⟨.own s acts, h :: hs⟩ →
    ¬ GangsStep m frame snip avx text own depth g (.run mem T) (.stopped i .killed)
  within : ∀ mem0 ps i, ¬ Trail (GangsStep m frame snip avx text own depth g) (.run mem0 fun _ => none)
    (.strayed i :: ps)

end

/-- Wherever a snippet of the program or of a handler stands, the embedded byte and what comes behind it is no
instruction of AVX-512, if the processor has these. -/
def GangsUndefined (snip : Func → Ev → Code → State → W → Prop) (own : W → Prop) (g : Nat → W) (avx : Bool)
    (text : W → Byte) : Prop :=
  ByteUndefined snip avx text ∧ (avx = true → ∀ i (j : Job) a n, j.Ok own (g i) → Inserted text j.code a n →
    .illegal ∈ j.code → atByte j.code (fun i => text (a + BitVec.ofNat 64 n + BitVec.ofNat 64 i)) = some .undefined)

end Verif
