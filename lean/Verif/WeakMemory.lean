import Verif.ByteCrews

/-!
# Specification: protected programs on processors with several cores

As `Verif.ByteCrews`, but the threads do not share one memory which changes at once: what a thread writes is seen
by the thread itself at once, and by others later, or in another order.  On x86, writes wait in the store buffer of
the core (`Caches.x86`).
-/

namespace Verif

/-! ## Memory -/

/-- What lies between threads and memory.  A thread's writes are seen by itself at once (`own`). -/
structure Caches where
  Config : Type
  /-- what this thread reads -/
  sees : Config → Nat → Mem
  /-- this thread writes, or does not -/
  writes : Nat → Config → Config → Prop
  /-- the processor passes on what this thread has written -/
  passes : Nat → Config → Config → Prop
  own : ∀ {i a b}, passes i a b → sees b i = sees a i

/-- One memory, in which every write is seen by all at once. -/
def Caches.direct : Caches where
  Config := Mem
  sees a _ := a
  writes _ _ _ := True
  passes _ _ _ := False
  own h := h.elim

/-- Memory, and for every thread the bytes which it has written and which have not got there, the oldest first. -/
structure Buffered where
  mem : Mem
  waiting : Nat → List (W × Byte)

/-- The memory after these writes, the first first. -/
def afterWrites (mem : Mem) : List (W × Byte) → Mem
  | [] => mem
  | (x, v) :: ws => afterWrites (fun y => if y = x then v else mem y) ws

/-- The memory of x86: every thread reads what it has written itself and, for want of that, memory.  Its writes get
there in order, one byte at a time.  (Writes of several bytes which get there at once, and instructions which wait
until the buffer is empty, are special cases.) -/
def Caches.x86 : Caches where
  Config := Buffered
  sees a i := afterWrites a.mem (a.waiting i)
  writes i a b := b.mem = a.mem ∧ (∀ j, j ≠ i → b.waiting j = a.waiting j) ∧ ∃ ws, b.waiting i = a.waiting i ++ ws
  passes i a b := ∃ x v, a.waiting i = (x, v) :: b.waiting i ∧ (∀ j, j ≠ i → b.waiting j = a.waiting j) ∧
    b.mem = fun y => if y = x then v else a.mem y
  own := by
    rintro i a b ⟨x, v, h1, _, h2⟩
    rw [h1, h2]
    rfl

/-! ## Processes -/

/-- A process. -/
inductive WeakProc (M : Caches)
  | run (a : M.Config) (T : Nat → Option Gang)
  /-- stopped by what became of this thread -/
  | stopped (i : Nat) (q : XProc)
  | strayed (i : Nat)

/-- What the threads other than `i` rely on looks the same to them. -/
def Caches.Spares (M : Caches) (g : Nat → W) (T : Nat → Option Gang) (i : Nat) (a b : M.Config) : Prop :=
  ∀ j c, j ≠ i → T j = some c → ∀ x, InRange x (g j) regionSize ∨ c.keeps x → M.sees b j x = M.sees a j x

section
variable (m : ProgSem) (frame : Func → Reg) (snip : Func → Ev → Code → State → W → Prop) (avx : Bool)
  (text : W → Byte) (M : Caches)

/-- One step of a process.  The shadow region of thread `i` is at `g i`.  What others rely on is not written, which
counts when the write gets to them. -/
inductive WeakStep (own : W → Prop) (depth : Nat) (g : Nat → W) : WeakProc M → WeakProc M → Prop
  | step {a b : M.Config} {T : Nat → Option Gang} {i : Nat} {c c' : Gang} : T i = some c →
      GangStep m frame snip avx text own depth (g i) (M.sees a i) c (M.sees b i) c' → M.writes i a b →
      M.Spares g T i a b → WeakStep own depth g (.run a T) (.run b (setAt T i (some c')))
  /-- what thread `i` has written is passed on, while no thread executes anything -/
  | pass {a b : M.Config} {T : Nat → Option Gang} {i : Nat} : M.passes i a b → M.Spares g T i a b →
      WeakStep own depth g (.run a T) (.run b T)
  | stop {a : M.Config} {T : Nat → Option Gang} {i : Nat} {c : Gang} {q : XProc} : T i = some c →
      GangStop m frame avx text (g i) (M.sees a i) c q → WeakStep own depth g (.run a T) (.stopped i q)
  | stray {a : M.Config} {T : Nat → Option Gang} {i : Nat} {c : Gang} : T i = some c →
      GangStray avx text (M.sees a i) c → WeakStep own depth g (.run a T) (.strayed i)
  /-- a thread starts with a call of `f`, whose return address is at `p`, and with an empty shadow stack -/
  | spawn {a b : M.Config} {T : Nat → Option Gang} {i : Nat} {s : State} (f : Func) (p : W) : T i = none →
      M.sees b i = s.mem → Recorded (g i) [] s → M.writes i a b → M.Spares g T i a b →
      WeakStep own depth g (.run a T) (.run b (setAt T i (some ⟨.own s [⟨f, [], s.mem.read64 p, p⟩], []⟩)))
  | exit {a : M.Config} {T : Nat → Option Gang} {i : Nat} {s : State} : T i = some ⟨.own s [], []⟩ →
      WeakStep own depth g (.run a T) (.run a (setAt T i none))

variable {M}

/-- On this way an activation of thread `i` with this return address has disappeared before its check. -/
def WeakLost (ps : List (WeakProc M)) (i : Nat) (v : W) : Prop :=
  Once (fun p q => ∃ a b T T' c c' up, p = .run a T ∧ q = .run b T' ∧ T i = some c ∧ T' i = some c' ∧
    c.prog.acts = up ++ c'.prog.acts ∧ ∃ x ∈ up, m.stacked x.func x.done ∧ v = x.ra) ps

/-- On this way an activation of thread `i` with this return address has disappeared while its push was due, or
being executed. -/
def WeakCut (ps : List (WeakProc M)) (i : Nat) (v : W) : Prop :=
  Once (fun p q => ∃ a b T T' c c' u up, p = .run a T ∧ q = .run b T' ∧ T i = some c ∧ T' i = some c' ∧
    c.prog.acts = u :: up ++ c'.prog.acts ∧ m.trace u.func (u.done ++ [.push]) ∧ ¬ m.inReg u.func ∧ v = u.ra) ps

variable (M)

/-- Every thread of the process is protected, as `GangsProtected` says, with the memory that it sees. -/
structure WeakProtected (own : W → Prop) (depth : Nat) (g : Nat → W) : Prop where
  recorded : ∀ a0 a T ps i s c cs,
    Trail (WeakStep m frame snip avx text M own depth g) (.run a0 fun _ => none) (.run a T :: ps) →
    T i = some ⟨.own s (c :: cs), []⟩ → m.danger c.func c.done → ∃ l, Recorded (g i) l (s.over (M.sees a i)) ∧
      ∀ x ∈ c :: cs, ¬ m.stays x.func → x.ra ∈ l ∨ m.inReg x.func ∧ s.regs (frame x.func) = x.ra
  unchecked : ∀ a0 ps i v, ¬ Trail (WeakStep m frame snip avx text M own depth g) (.run a0 fun _ => none)
    (.stopped i (.hijacked v) :: ps)
  accepted : ∀ a0 a T ps i v,
    Trail (WeakStep m frame snip avx text M own depth g) (.run a0 fun _ => none) (.run a T :: ps) →
    WeakStep m frame snip avx text M own depth g (.run a T) (.stopped i (.diverted v)) → v = 0 ∨
      (∃ c, T i = some c ∧ ∃ x ∈ c.prog.acts, m.stacked x.func x.done ∧ v = x.ra) ∨
      WeakLost m (.run a T :: ps) i v ∨ WeakCut m (.run a T :: ps) i v ∨ own v
  quiet : ∀ a0 a T ps i c u us l,
    Trail (WeakStep m frame snip avx text M own depth g) (.run a0 fun _ => none) (.run a T :: ps) →
    T i = some c → c.prog.acts = u :: us → (c.prog.base (M.sees a i)).mem.read64 u.at_ = u.ra →
    Recorded (g i) l (c.prog.base (M.sees a i)) → (∀ v ∈ l, ¬ GuardLike v) →
    ¬ WeakStep m frame snip avx text M own depth g (.run a T) (.stopped i .killed)
  handlers : ∀ a0 a T ps i s acts h hs,
    Trail (WeakStep m frame snip avx text M own depth g) (.run a0 fun _ => none) (.run a T :: ps) →
    T i = some ⟨.own s acts, h :: hs⟩ →
    ¬ WeakStep m frame snip avx text M own depth g (.run a T) (.stopped i .killed)
  within : ∀ a0 ps i, ¬ Trail (WeakStep m frame snip avx text M own depth g) (.run a0 fun _ => none)
    (.strayed i :: ps)

/-! ## Areas -/

/-- Thread `i` writes, but not to the areas of others. -/
def Buffered.Adds (A : Nat → W → Prop) (i : Nat) (a b : Buffered) : Prop :=
  b.mem = a.mem ∧ (∀ j, j ≠ i → b.waiting j = a.waiting j) ∧
    ∃ ws, b.waiting i = a.waiting i ++ ws ∧ ∀ w ∈ ws, ∀ j, j ≠ i → ¬ A j w.1

/-- What this thread relies on is in its area. -/
def Gang.Stays (A : Nat → W → Prop) (g : Nat → W) (i : Nat) (c : Gang) : Prop :=
  ∀ x, InRange x (g i) regionSize ∨ c.keeps x → A i x

/-- One step of a process on x86 in which every thread has an area, and does not write to the areas of others.  Nothing is
asked of what the processor does later with what has been written. -/
inductive AreaStep (own : W → Prop) (depth : Nat) (A : Nat → W → Prop) (g : Nat → W) :
    WeakProc .x86 → WeakProc .x86 → Prop
  | step {a b : Buffered} {T : Nat → Option Gang} {i : Nat} {c c' : Gang} : T i = some c →
      GangStep m frame snip avx text own depth (g i) (Caches.x86.sees a i) c (Caches.x86.sees b i) c' → a.Adds A i b →
      c'.Stays A g i → AreaStep own depth A g (.run a T) (.run b (setAt T i (some c')))
  | pass {a b : Buffered} {T : Nat → Option Gang} {i : Nat} : Caches.x86.passes i a b →
      AreaStep own depth A g (.run a T) (.run b T)
  | stop {a : Buffered} {T : Nat → Option Gang} {i : Nat} {c : Gang} {q : XProc} : T i = some c →
      GangStop m frame avx text (g i) (Caches.x86.sees a i) c q → AreaStep own depth A g (.run a T) (.stopped i q)
  | stray {a : Buffered} {T : Nat → Option Gang} {i : Nat} {c : Gang} : T i = some c →
      GangStray avx text (Caches.x86.sees a i) c → AreaStep own depth A g (.run a T) (.strayed i)
  | spawn {a b : Buffered} {T : Nat → Option Gang} {i : Nat} {s : State} (f : Func) (p : W) : T i = none →
      Caches.x86.sees b i = s.mem → Recorded (g i) [] s → a.Adds A i b →
      Gang.Stays A g i ⟨.own s [⟨f, [], s.mem.read64 p, p⟩], []⟩ →
      AreaStep own depth A g (.run a T) (.run b (setAt T i (some ⟨.own s [⟨f, [], s.mem.read64 p, p⟩], []⟩)))
  | exit {a : Buffered} {T : Nat → Option Gang} {i : Nat} {s : State} : T i = some ⟨.own s [], []⟩ →
      AreaStep own depth A g (.run a T) (.run a (setAt T i none))

end

end Verif
