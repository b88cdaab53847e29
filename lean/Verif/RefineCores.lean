import Verif.RefineTeam
import Verif.WeakMemory
import Verif.Props.FootWrites

/-!
# Specification: a program with several threads and its instrumented version on x86

As `Verif.RefineTeam`, with a store buffer for every thread: a thread sees what it has written itself and, for want of that,
memory; its writes get to memory in order, one byte at a time, whenever the processor likes.  Locked instructions and fences wait
until the buffer is empty, and what they write gets to memory at once.  Every thread has an area, which contains its shadow
region and the part of its stack which snippets use; threads neither write to the areas of others nor look at them.
-/

namespace Verif

variable {ι κ L : Type}

/-- The program: its steps, with the bytes they write, the first first; which of its instructions are locked; and the inserted
code with the control points behind it. -/
structure CoreGuest (κ L : Type) where
  step : κ → State → List (W × Byte) → L → κ → Cpu → Prop
  locked : κ → Prop
  site : κ → Option (Code × κ)

/-- Threads: memory, what waits in their buffers, where each of them is, and its registers. -/
structure Cores (ι κ : Type) where
  mem : Mem
  buf : ι → List (W × Byte)
  pos : ι → κ
  cpu : ι → Cpu

/-- The memory as a thread sees it. -/
def Cores.view (M : Cores ι κ) (i : ι) : Mem := afterWrites M.mem (M.buf i)

/-- These registers with this memory. -/
def Cpu.with_ (c : Cpu) (mem : Mem) : State := ⟨c.regs, c.flags, c.gs, mem⟩

/-- What a thread sees. -/
def Cores.at_ (M : Cores ι κ) (i : ι) : State := (M.cpu i).with_ (M.view i)

/-- The stack pointer of a thread. -/
def Cores.sp (M : Cores ι κ) (i : ι) : W := (M.cpu i).regs .rsp

section
variable [DecidableEq ι]

/-- The thread has got to the control point with these registers, and has written this. -/
def Cores.put (M : Cores ι κ) (i : ι) (k : κ) (c : Cpu) (ws : List (W × Byte)) : Cores ι κ :=
  ⟨M.mem, fun j => if j = i then M.buf i ++ ws else M.buf j, fun j => if j = i then k else M.pos j,
    fun j => if j = i then c else M.cpu j⟩

/-- Likewise by a locked instruction. -/
def Cores.sync (M : Cores ι κ) (i : ι) (k : κ) (c : Cpu) (ws : List (W × Byte)) : Cores ι κ :=
  ⟨afterWrites M.mem ws, M.buf, fun j => if j = i then k else M.pos j, fun j => if j = i then c else M.cpu j⟩

/-- The first byte which waits gets to memory; the others wait. -/
def Cores.drain (M : Cores ι κ) (i : ι) (w : W × Byte) (ws : List (W × Byte)) : Cores ι κ :=
  ⟨fun y => if y = w.1 then w.2 else M.mem y, fun j => if j = i then ws else M.buf j, M.pos, M.cpu⟩

/-- What happens in the original, except that snippets are passed. -/
inductive CoreMove (P : CoreGuest κ L) (M : Cores ι κ) (i : ι) : List L → Cores ι κ → Prop
  | own {l : L} {k' : κ} {c : Cpu} {ws : List (W × Byte)} : ¬ P.locked (M.pos i) →
      P.step (M.pos i) (M.at_ i) ws l k' c → CoreMove P M i [l] (M.put i k' c ws)
  | locked {l : L} {k' : κ} {c : Cpu} {ws : List (W × Byte)} : P.locked (M.pos i) → M.buf i = [] →
      P.step (M.pos i) (M.at_ i) ws l k' c → CoreMove P M i [l] (M.sync i k' c ws)
  | drain {w : W × Byte} {ws : List (W × Byte)} : M.buf i = w :: ws → CoreMove P M i [] (M.drain i w ws)

/-- Executions of the original, with what the outside world sees of them. -/
inductive CoreRun (P : CoreGuest κ L) (M0 : Cores ι κ) : List (ι × L) → Cores ι κ → Prop
  | start : CoreRun P M0 [] M0
  | move {tr : List (ι × L)} {M M' : Cores ι κ} {i : ι} {ls : List L} : CoreRun P M0 tr M → CoreMove P M i ls M' →
      CoreRun P M0 (tr ++ ls.map (Prod.mk i)) M'
  | pass {tr : List (ι × L)} {M : Cores ι κ} {i : ι} {c : Code} {k' : κ} : CoreRun P M0 tr M →
      P.site (M.pos i) = some (c, k') → CoreRun P M0 tr (M.put i k' (M.cpu i) [])

/-- One step of one thread of the instrumented program, or of its buffer. -/
inductive ArmedMove (P : CoreGuest κ L) (N : Cores ι (Stand κ)) (i : ι) : List L → Option (Cores ι (Stand κ)) → Prop
  | own {k k' : κ} {l : L} {c : Cpu} {ws : List (W × Byte)} : N.pos i = .own k → ¬ P.locked k →
      P.step k (N.at_ i) ws l k' c → ArmedMove P N i [l] (some (N.put i (.own k') c ws))
  | locked {k k' : κ} {l : L} {c : Cpu} {ws : List (W × Byte)} : N.pos i = .own k → P.locked k → N.buf i = [] →
      P.step k (N.at_ i) ws l k' c → ArmedMove P N i [l] (some (N.sync i (.own k') c ws))
  | enter {k k' : κ} {c : Code} : N.pos i = .own k → P.site k = some (c, k') →
      ArmedMove P N i [] (some (N.put i (.busy c c k') (N.cpu i) []))
  | instr {w r r' : Code} {ins : Instr} {k' : κ} {s' : State} {ws : List (W × Byte)} : N.pos i = .busy w (ins :: r) k' →
      Go w (ins :: r) (N.at_ i) r' s' → afterWrites (N.view i) ws = s'.mem →
      (∀ x ∈ ws, ∃ p ∈ Wr.stores ins (N.at_ i), InRange x.1 p.1 p.2) →
      ArmedMove P N i [] (some (N.put i (.busy w r' k') s'.cpu ws))
  | leave {w : Code} {k' : κ} : N.pos i = .busy w [] k' → ArmedMove P N i [] (some (N.put i (.own k') (N.cpu i) []))
  | trap {w r : Code} {ins : Instr} {k' : κ} {s' : State} : N.pos i = .busy w (ins :: r) k' →
      exec ins (N.at_ i) = .trap s' → ArmedMove P N i [] none
  | drain {w : W × Byte} {ws : List (W × Byte)} : N.buf i = w :: ws → ArmedMove P N i [] (some (N.drain i w ws))

/-- The threads of the instrumented program before they begin. -/
def Cores.arm (M : Cores ι κ) : Cores ι (Stand κ) := ⟨M.mem, M.buf, fun i => .own (M.pos i), M.cpu⟩

/-- Executions of the instrumented program; `none`: it has been killed. -/
inductive ArmedCores (P : CoreGuest κ L) (M0 : Cores ι κ) : List (ι × L) → Option (Cores ι (Stand κ)) → Prop
  | start : ArmedCores P M0 [] (some M0.arm)
  | step {tr : List (ι × L)} {N : Cores ι (Stand κ)} {i : ι} {ls : List L} {c : Option (Cores ι (Stand κ))} :
      ArmedCores P M0 tr (some N) → ArmedMove P N i ls c → ArmedCores P M0 (tr ++ ls.map (Prod.mk i)) c

/-- Steps of a thread inside of a snippet, while the others and all buffers rest. -/
inductive OnlyCore (P : CoreGuest κ L) (i : ι) : Cores ι (Stand κ) → Cores ι (Stand κ) → Prop
  | refl (N : Cores ι (Stand κ)) : OnlyCore P i N N
  | step {N N' N'' : Cores ι (Stand κ)} : ArmedMove P N i [] (some N') → N'.mem = N.mem → OnlyCore P i N' N'' → OnlyCore P i N N''

end

/-! ## What the threads look at, and what they leave alone -/

/-- No thread looks at the areas of others. -/
def coreBlind (D : ι → Blind κ) (A : ι → W → Prop) (i : ι) : Blind κ :=
  { D i with mem := fun k sp x => (D i).mem k sp x ∨ ∃ j, j ≠ i ∧ A j x }

open Classical in
/-- What is written to bytes which are in no area. -/
noncomputable def shared (A : ι → W → Prop) (ws : List (W × Byte)) : List (W × Byte) :=
  ws.filter fun w => decide (∀ i, ¬ A i w.1)

section
variable [DecidableEq ι]

/-- The threads are as `D` says: what they do not look at is in their areas, which are disjoint; nobody writes to the shadow
regions, or to the areas of others. -/
structure CoreGuest.Respects (P : CoreGuest κ L) (D : ι → Blind κ) (g : ι → W) (A : ι → W → Prop) (M0 : Cores ι κ) : Prop where
  rsp : ∀ i k, ¬ (D i).hides k .rsp
  region : ∀ i k sp x, InRange x (g i) regionSize → (D i).mem k sp x
  hidden : ∀ i k sp x, (D i).mem k sp x → A i x
  apart : ∀ i j x, A i x → A j x → i = j
  waits : ∀ i j, j ≠ i → ∀ w ∈ M0.buf i, ¬ A j w.1
  spares : ∀ tr M i t ws l k' c, CoreRun P M0 tr M → (coreBlind D A i).Same (M.pos i) (M.at_ i) t →
    P.step (M.pos i) t ws l k' c → c.gs = t.gs ∧
    (∀ w ∈ ws, ¬ InRange w.1 (g i) regionSize ∧ ∀ j, j ≠ i → ¬ A j w.1) ∧
    (∀ r, (D i).frame (M.pos i) = some r → c.regs r = t.regs r) ∧ (D i).frame k' = (D i).frame (M.pos i)
  forth : ∀ tr M i t ws l k' c, CoreRun P M0 tr M → (coreBlind D A i).Same (M.pos i) (M.at_ i) t →
    P.step (M.pos i) (M.at_ i) ws l k' c → ∃ ws' c', P.step (M.pos i) t ws' l k' c' ∧ shared A ws' = shared A ws ∧
      (coreBlind D A i).Same k' (c.with_ (afterWrites (M.view i) ws)) (c'.with_ (afterWrites t.mem ws'))
  back : ∀ tr M i t ws' l k' c', CoreRun P M0 tr M → (coreBlind D A i).Same (M.pos i) (M.at_ i) t →
    P.step (M.pos i) t ws' l k' c' → ∃ ws c, P.step (M.pos i) (M.at_ i) ws l k' c ∧ shared A ws' = shared A ws ∧
      (coreBlind D A i).Same k' (c.with_ (afterWrites (M.view i) ws)) (c'.with_ (afterWrites t.mem ws'))

/-- Every thread keeps a book, as in `Guest.TeamAccounts`; the return address which a snippet uses and the bytes below the stack
pointer are in the thread's area. -/
structure CoreGuest.Accounts (P : CoreGuest κ L) (D : ι → Blind κ) (g : ι → W) (A : ι → W → Prop) (M0 : Cores ι κ)
    (Q : ι → Book → Cores ι κ → Prop) : Prop where
  start : ∀ i, Q i {} M0
  move : ∀ tr M i j b ls M', CoreRun P M0 tr M → Q j b M → CoreMove P M i ls M' → Q j b M'
  /-- other threads pass snippets -/
  other : ∀ tr M i j b c k', CoreRun P M0 tr M → Q j b M → j ≠ i → P.site (M.pos i) = some (c, k') →
    Q j b (M.put i k' (M.cpu i) [])
  pass : ∀ tr M i b c k', CoreRun P M0 tr M → Q i b M → P.site (M.pos i) = some (c, k') →
    ∃ (x : Site) (b' : Book), x.code = c ∧ x.Fits (coreBlind D A i) (g i) (M.pos i) k' (M.at_ i) ∧
      x.Keeps (M.at_ i) b b' ∧ Q i b' (M.put i k' (M.cpu i) []) ∧
      (∀ a, InRange a (x.word (M.at_ i)) 8 → A i a) ∧
      ∀ a, InRange a (M.sp i - BitVec.ofNat 64 x.below) x.below → (D i).mem k' (M.sp i) a

/-- The threads return to where they were called from. -/
def CoreGuest.Honest (P : CoreGuest κ L) (D : ι → Blind κ) (g : ι → W) (A : ι → W → Prop) (M0 : Cores ι κ) : Prop :=
  ∃ Q, P.Accounts D g A M0 Q

/-- The two programs do the same: whatever the outside world can see of one it can see of the other, in the same order, and the
memory outside of the areas is the same; the snippets do not kill it, and they come to an end. -/
structure CoreGuest.Refines (P : CoreGuest κ L) (D : ι → Blind κ) (A : ι → W → Prop) (M0 : Cores ι κ) : Prop where
  forth : ∀ tr M, CoreRun P M0 tr M → ∃ N, ArmedCores P M0 tr (some N) ∧ (∀ x, (∀ i, ¬ A i x) → N.mem x = M.mem x) ∧
    ∀ i, N.pos i = .own (M.pos i) ∧ (coreBlind D A i).Same (M.pos i) (M.at_ i) (N.at_ i)
  back : ∀ tr N, ArmedCores P M0 tr (some N) → ∃ M, CoreRun P M0 tr M ∧ (∀ x, (∀ i, ¬ A i x) → N.mem x = M.mem x) ∧
    ∀ i, (N.pos i).point = M.pos i ∧ ∀ k, N.pos i = .own k → (coreBlind D A i).Same k (M.at_ i) (N.at_ i)
  alive : ∀ tr, ¬ ArmedCores P M0 tr none
  ends : ∀ tr N i, ArmedCores P M0 tr (some N) → ∃ N', OnlyCore P i N N' ∧ N'.pos i = .own (N.pos i).point

end

end Verif
