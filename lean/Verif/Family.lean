import Verif.Threads

/-!
# Specification: processes which fork, and flows of control which share a shadow stack (C112, C113)

The runtime library gives a shadow stack to the main thread and to each thread created by
`pthread_create` (`/repo/src/runtime.c:38-81`).  A process created by `fork` gets a copy of everything,
including the gs base.  One created by `vfork` runs in the memory of its parent, with the same gs base,
while the parent waits.  Flows of control made in other ways - `makecontext`, `clone`, `thrd_create`, which
does not go through the library's `pthread_create` - have stacks of their own, but use the shadow stack
of the thread which made them, because they inherit the gs base.
-/

namespace Verif

/-! ## Processes -/

/-- An address space: the process executing in it, and those which wait for it to call `_exit` or
`execve`, the last first: each with its processor and its protected calls in progress. -/
structure AddrSpace where
  conf : Conf
  waiting : List (Cpu × List W)

/-- One step in an address space.  `stays q p`: what is asked of a child with the calls `p` in progress
whose parent has `q`. -/
inductive SpaceStep (stays : List W → List W → Prop) (g : W) : AddrSpace → AddrSpace → Prop
  /-- the process which is executing does something -/
  | act {c c' w} : HonestStep g c c' →
      (∀ s p leaf q, c' = .run s p leaf → q ∈ w.head? → stays q.2 p) →
      SpaceStep stays g ⟨c, w⟩ ⟨c', w⟩
  /-- `vfork`: the child returns from it first -/
  | vfork {s p w} (regs : Reg → W) (flags : W) :
      SpaceStep stays g ⟨.run s p none, w⟩
        ⟨.run { s with regs := regs, flags := flags } p none, (s.cpu, p) :: w⟩
  /-- the child has gone, and `vfork` returns to the parent -/
  | resume {s p leaf c q w} (regs : Reg → W) (flags : W) :
      SpaceStep stays g ⟨.run s p leaf, (c, q) :: w⟩ ⟨.run ⟨regs, flags, c.gs, s.mem⟩ q none, w⟩

/-- What POSIX asks of a child of `vfork`: not to return from the function which called it. -/
def Posix (q p : List W) : Prop := q <:+ p

variable {ι : Type} [DecidableEq ι]

/-- One step of a family of processes. -/
inductive FamilyStep (stays : List W → List W → Prop) (g : W) : (ι → Option AddrSpace) → (ι → Option AddrSpace) → Prop
  | act {F : ι → Option AddrSpace} {i a a'} : F i = some a → SpaceStep stays g a a' →
      FamilyStep stays g F (fun j => if j = i then some a' else F j)
  /-- `fork`: the child has a copy of the memory -/
  | fork {F : ι → Option AddrSpace} {i k s p leaf w} (regs : Reg → W) (flags : W) :
      F i = some ⟨.run s p leaf, w⟩ → F k = none → (∀ r v, leaf = some (r, v) → regs r = s.regs r) →
      FamilyStep stays g F
        (fun j => if j = k then some ⟨.run { s with regs := regs, flags := flags } p leaf, []⟩ else F j)
  /-- `_exit`, `execve` -/
  | gone {F : ι → Option AddrSpace} {i} : FamilyStep stays g F (fun j => if j = i then none else F j)

/-- Executions of any length. -/
inductive FamilyRun (stays : List W → List W → Prop) (g : W) (F : ι → Option AddrSpace) : (ι → Option AddrSpace) → Prop
  | refl : FamilyRun stays g F F
  | step {A B} : FamilyRun stays g F A → FamilyStep stays g A B → FamilyRun stays g F B

/-- A single process, which has not called anything yet. -/
def oneProcess (i : ι) (s : State) : ι → Option AddrSpace :=
  fun j => if j = i then some ⟨.run s [] none, []⟩ else none

/-! ## Flows of control -/

/-- Flows of control sharing a shadow stack: the one which is executing, and the others: each with its
processor and its protected calls in progress. -/
structure Flows (κ : Type) where
  conf : Conf
  others : κ → Option (Cpu × List W)

variable {κ : Type} [DecidableEq κ]

/-- One step.  `may p`: a flow with the calls `p` in progress may be left and resumed later. -/
inductive FlowStep (may : List W → Prop) (g : W) : Flows κ → Flows κ → Prop
  | act {c c' o} : HonestStep g c c' → FlowStep may g ⟨c, o⟩ ⟨c', o⟩
  /-- a new flow begins, for instance by `makecontext`: it has the gs base of its maker -/
  | make {s p leaf o} (k : κ) (regs : Reg → W) (flags : W) : o k = none →
      FlowStep may g ⟨.run s p leaf, o⟩
        ⟨.run s p leaf, fun j => if j = k then some (⟨regs, flags, s.gs⟩, []) else o j⟩
  /-- control passes to the flow `k`; the one which is left is now known as `k'`, or never resumed -/
  | switch {s p c q o} (k : κ) (k' : Option κ) : o k = some (c, q) →
      (∀ j ∈ k', j = k ∨ o j = none) → (k' ≠ none → may p) →
      FlowStep may g ⟨.run s p none, o⟩
        ⟨.run ⟨c.regs, c.flags, c.gs, s.mem⟩ q none,
          fun j => if k' = some j then some (s.cpu, p) else if j = k then none else o j⟩

/-- Executions of any length. -/
inductive FlowRun (may : List W → Prop) (g : W) (A : Flows κ) : Flows κ → Prop
  | refl : FlowRun may g A A
  | step {B C} : FlowRun may g A B → FlowStep may g B C → FlowRun may g A C

end Verif
