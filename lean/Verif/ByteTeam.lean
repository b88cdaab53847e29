import Verif.Multi
import Verif.MachineCode

/-!
# Specification: protected programs in memory

As `Verif.Multi`, but the snippets are bytes in the text of the instrumented program, which a processor
executes one instruction at a time, see `Verif.MachineCode`.  Nothing says that the processor stays in these
bytes until it comes to their end.
-/

namespace Verif

/-- The `n` bytes at `a` are those which `StackOpSnippet::generate` (`/repo/src/instrument.cc:93-108`) returns
for `code`. -/
def Inserted (text : W → Byte) (code : Code) (a : W) (n : Nat) : Prop :=
  ∃ bs, generate a code = some bs ∧ Stands text a bs ∧ bs.length = n ∧ n < 2 ^ 64

/-- What a thread is doing.  The memory of `s` does not count. -/
inductive Task
  | own (s : State) (acts : List XAct)
  /-- `rip` is `x`, in the `n` bytes at `b`, which stand there for the event `ev` of the activation `a`; the
  thread came to them in the state `s0` -/
  | busy (b : W) (n : Nat) (x : W) (ev : Ev) (s0 s : State) (a : XAct) (as : List XAct)

/-- What the thread has still to do. -/
def Task.acts : Task → List XAct
  | .own _ acts => acts
  | .busy _ _ _ _ _ _ a as => a :: as

/-- Where the thread's latest snippet began, if it is executing one, and where it is otherwise. -/
def Task.base (mem : Mem) : Task → State
  | .own s _ => s.over mem
  | .busy _ _ _ _ s0 _ _ _ => s0

/-- The bytes of memory a thread relies on: its shadow region, its stored return addresses and, during a
snippet, 16 bytes below its stack pointer. -/
def Task.needs (g : W) : Task → W → Prop
  | .own _ acts, x => InRange x g regionSize ∨ ∃ b ∈ acts, InRange x b.at_ 8
  | .busy _ _ _ _ s0 _ a as, x => SnipFoot g a.at_ (s0.regs .rsp) 16 x ∨ ∃ b ∈ a :: as, InRange x b.at_ 8

/-- A process. -/
inductive ByteProc
  | run (mem : Mem) (T : Nat → Option Task)
  /-- stopped by what became of this thread -/
  | stopped (i : Nat) (q : XProc)
  /-- this thread has left a snippet elsewhere than at its end, or has come to bytes which are no instruction
  of a snippet -/
  | strayed (i : Nat)

/-- The change of memory spares what the threads other than `i` rely on. -/
def Task.Others (g : Nat → W) (T : Nat → Option Task) (i : Nat) (mem mem' : Mem) : Prop :=
  ∀ j w, j ≠ i → T j = some w → ∀ x, w.needs (g j) x → mem' x = mem x

section
variable (m : ProgSem) (frame : Func → Reg) (snip : Func → Ev → Code → State → W → Prop) (avx : Bool)
  (text : W → Byte) (g : Nat → W)

/-- One step of a process.  The shadow region of thread `i` is at `g i`, and threads leave alone what the
others need.  `snip f ev c s R`: the snippet `c` has been inserted where `f`, whose return address is at `R`, is
in the state `s`. -/
inductive ByteStep : ByteProc → ByteProc → Prop
  /-- a step of a single thread outside of snippets -/
  | own {mem : Mem} {T : Nat → Option Task} {i : Nat} {s s' : State} {acts acts' : List XAct} :
      T i = some (.own s acts) →
      threadStep m frame (fun _ _ _ _ _ => False) (g i) (.run (s.over mem) acts) (.run s' acts') →
      Task.Others g T i mem s'.mem → ByteStep (.run mem T) (.run s'.mem (setAt T i (some (.own s' acts'))))
  | stop {mem : Mem} {T : Nat → Option Task} {i : Nat} {s : State} {acts : List XAct} {q : XProc} :
      T i = some (.own s acts) →
      threadStep m frame (fun _ _ _ _ _ => False) (g i) (.run (s.over mem) acts) q →
      (∀ s' acts', q ≠ .run s' acts') → ByteStep (.run mem T) (.stopped i q)
  /-- a thread comes to the bytes of a snippet -/
  | begin {mem : Mem} {T : Nat → Option Task} {i : Nat} {s : State} {a : XAct} {as : List XAct} {ev : Ev}
      {code : Code} {b : W} {n : Nat} : T i = some (.own s (a :: as)) → m.trace a.func (a.done ++ [ev]) →
      snip a.func ev code (s.over mem) a.at_ → Inserted text code b n → Clear (g i) (a :: as) 16 (s.over mem) →
      HasRoom (g i) (s.over mem) →
      ByteStep (.run mem T) (.run mem (setAt T i (some (.busy b n b ev (s.over mem) s a as))))
  /-- one instruction -/
  | instr {mem : Mem} {T : Nat → Option Task} {i : Nat} {b : W} {n : Nat} {x x' : W} {ev : Ev}
      {s0 s s' : State} {a : XAct} {as : List XAct} : T i = some (.busy b n x ev s0 s a as) →
      Inside b n x → executeAt avx text x (s.over mem) = .next x' s' →
      Inside b n x' ∨ x' = b + BitVec.ofNat 64 n → Task.Others g T i mem s'.mem →
      ByteStep (.run mem T) (.run s'.mem (setAt T i (some (.busy b n x' ev s0 s' a as))))
  /-- the thread comes behind the bytes -/
  | finish {mem : Mem} {T : Nat → Option Task} {i : Nat} {b : W} {n : Nat} {ev : Ev} {s0 s : State} {a : XAct}
      {as : List XAct} : T i = some (.busy b n (b + BitVec.ofNat 64 n) ev s0 s a as) →
      (ev = .check → s0.mem.read64 a.at_ = a.ra) →
      ByteStep (.run mem T) (.run mem (setAt T i (some (.own s ({ a with done := a.done ++ [ev] } :: as)))))
  /-- ... behind those of a check although the return address had been changed -/
  | accept {mem : Mem} {T : Nat → Option Task} {i : Nat} {b : W} {n : Nat} {s0 s : State} {a : XAct}
      {as : List XAct} : T i = some (.busy b n (b + BitVec.ofNat 64 n) .check s0 s a as) →
      s0.mem.read64 a.at_ ≠ a.ra →
      ByteStep (.run mem T) (.stopped i (.diverted (s0.mem.read64 a.at_)))
  | sigill {mem : Mem} {T : Nat → Option Task} {i : Nat} {b : W} {n : Nat} {x : W} {ev : Ev} {s0 s s' : State}
      {a : XAct} {as : List XAct} : T i = some (.busy b n x ev s0 s a as) → Inside b n x →
      executeAt avx text x (s.over mem) = .sigill s' → ByteStep (.run mem T) (.stopped i .killed)
  | astray {mem : Mem} {T : Nat → Option Task} {i : Nat} {b : W} {n : Nat} {x x' : W} {ev : Ev}
      {s0 s s' : State} {a : XAct} {as : List XAct} : T i = some (.busy b n x ev s0 s a as) →
      Inside b n x → executeAt avx text x (s.over mem) = .next x' s' →
      ¬ Inside b n x' → x' ≠ b + BitVec.ofNat 64 n → ByteStep (.run mem T) (.strayed i)
  | unknown {mem : Mem} {T : Nat → Option Task} {i : Nat} {b : W} {n : Nat} {x : W} {ev : Ev}
      {s0 s : State} {a : XAct} {as : List XAct} : T i = some (.busy b n x ev s0 s a as) →
      Inside b n x → executeAt avx text x (s.over mem) = .unlisted → ByteStep (.run mem T) (.strayed i)
  /-- a thread starts with a call of `f`, whose return address is at `p`, and with an empty shadow stack
  (C71: the wrapper around `pthread_create`) -/
  | spawn {mem : Mem} {T : Nat → Option Task} {i : Nat} {s : State} (f : Func) (p : W) : T i = none →
      Recorded (g i) [] s → Task.Others g T i mem s.mem →
      ByteStep (.run mem T) (.run s.mem (setAt T i (some (.own s [⟨f, [], s.mem.read64 p, p⟩]))))
  | exit {mem : Mem} {T : Nat → Option Task} {i : Nat} {s : State} : T i = some (.own s []) →
      ByteStep (.run mem T) (.run mem (setAt T i none))

/-- On this way an activation of thread `i` with this return address has disappeared before its check. -/
def ByteLost (ps : List ByteProc) (i : Nat) (v : W) : Prop :=
  Once (fun p q => ∃ mem mem' T T' w w' up, p = .run mem T ∧ q = .run mem' T' ∧ T i = some w ∧ T' i = some w' ∧
    w.acts = up ++ w'.acts ∧ ∃ x ∈ up, m.stacked x.func x.done ∧ v = x.ra) ps

/-- Every thread of the process is protected, as `TeamProtected` says; and a thread which has come to the
bytes of a snippet executes these, until it comes behind the last of them or is killed. -/
structure ByteProtected : Prop where
  recorded : ∀ mem0 mem T ps i s a as,
    Trail (ByteStep m frame snip avx text g) (.run mem0 fun _ => none) (.run mem T :: ps) →
    T i = some (.own s (a :: as)) → m.danger a.func a.done → ∃ l, Recorded (g i) l (s.over mem) ∧
      ∀ x ∈ a :: as, ¬ m.stays x.func → x.ra ∈ l ∨ m.inReg x.func ∧ s.regs (frame x.func) = x.ra
  unchecked : ∀ mem0 ps i v,
    ¬ Trail (ByteStep m frame snip avx text g) (.run mem0 fun _ => none) (.stopped i (.hijacked v) :: ps)
  accepted : ∀ mem0 mem T ps i v,
    Trail (ByteStep m frame snip avx text g) (.run mem0 fun _ => none) (.run mem T :: ps) →
    ByteStep m frame snip avx text g (.run mem T) (.stopped i (.diverted v)) → v = 0 ∨
      (∃ w, T i = some w ∧ ∃ x ∈ w.acts, m.stacked x.func x.done ∧ v = x.ra) ∨ ByteLost m (.run mem T :: ps) i v
  quiet : ∀ mem0 mem T ps i w a as l,
    Trail (ByteStep m frame snip avx text g) (.run mem0 fun _ => none) (.run mem T :: ps) →
    T i = some w → w.acts = a :: as → (w.base mem).mem.read64 a.at_ = a.ra → Recorded (g i) l (w.base mem) →
    (∀ v ∈ l, ¬ GuardLike v) → ¬ ByteStep m frame snip avx text g (.run mem T) (.stopped i .killed)
  rip : ∀ mem0 mem T ps i b n x ev s0 s a as,
    Trail (ByteStep m frame snip avx text g) (.run mem0 fun _ => none) (.run mem T :: ps) →
    T i = some (.busy b n x ev s0 s a as) → Inside b n x ∨ x = b + BitVec.ofNat 64 n
  within : ∀ mem0 ps i,
    ¬ Trail (ByteStep m frame snip avx text g) (.run mem0 fun _ => none) (.strayed i :: ps)

end

/-- Wherever a snippet stands, the embedded byte and what comes behind it is no instruction of AVX-512, if the
processor has these: see C93, C98. -/
def ByteUndefined (snip : Func → Ev → Code → State → W → Prop) (avx : Bool) (text : W → Byte) : Prop :=
  avx = true → ∀ f ev code s R a n, snip f ev code s R → Inserted text code a n → .illegal ∈ code →
    atByte code (fun i => text (a + BitVec.ofNat 64 n + BitVec.ofNat 64 i)) = some .undefined

end Verif
