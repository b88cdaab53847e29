import Verif.Refine

/-!
# Specification: a program with several threads and its instrumented version

As `Verif.Refine`, with threads which share memory and take turns after every instruction.  The original
passes a snippet without doing anything; in the instrumented program other threads may do any number of
steps while one is in the middle of a snippet.  A thread which does not exist yet is one which waits.
-/

namespace Verif

variable {ι κ L : Type}

/-- Threads: the memory they share, where each of them is, and its registers. -/
structure Squad (ι κ : Type) where
  mem : Mem
  pos : ι → κ
  cpu : ι → Cpu

/-- What a thread sees. -/
def Squad.at_ (M : Squad ι κ) (i : ι) : State := ⟨(M.cpu i).regs, (M.cpu i).flags, (M.cpu i).gs, M.mem⟩

/-- The stack pointer of a thread. -/
def Squad.sp (M : Squad ι κ) (i : ι) : W := (M.cpu i).regs .rsp

variable [DecidableEq ι]

/-- The thread has got to the control point with this state. -/
def Squad.put (M : Squad ι κ) (i : ι) (k : κ) (s : State) : Squad ι κ :=
  ⟨s.mem, fun j => if j = i then k else M.pos j, fun j => if j = i then s.cpu else M.cpu j⟩

/-- Executions of the original, with what the outside world sees of them. -/
inductive SquadRun (P : Guest κ L) (M0 : Squad ι κ) : List (ι × L) → Squad ι κ → Prop
  | start : SquadRun P M0 [] M0
  | step {tr : List (ι × L)} {M : Squad ι κ} {i : ι} {ls : List L} {k' : κ} {s' : State} : SquadRun P M0 tr M →
      Bare P (M.pos i) (M.at_ i) ls k' s' → SquadRun P M0 (tr ++ ls.map (Prod.mk i)) (M.put i k' s')

/-- A thread of the instrumented program is at a control point or inside of a snippet: the whole code, what is
left of it, and the control point behind it. -/
inductive Stand (κ : Type)
  | own (k : κ)
  | busy (w r : Code) (k : κ)

/-- The control point at which the original is meanwhile. -/
def Stand.point : Stand κ → κ
  | .own k | .busy _ _ k => k

/-- One step of one thread of the instrumented program; a snippet is executed instruction by instruction, and
SIGILL ends the process. -/
inductive SquadStep (P : Guest κ L) (N : Squad ι (Stand κ)) (i : ι) : List L → Option (Squad ι (Stand κ)) → Prop
  | own {k k' : κ} {l : L} {s' : State} : N.pos i = .own k → P.step k (N.at_ i) l k' s' →
      SquadStep P N i [l] (some (N.put i (.own k') s'))
  | enter {k k' : κ} {c : Code} : N.pos i = .own k → P.site k = some (c, k') →
      SquadStep P N i [] (some (N.put i (.busy c c k') (N.at_ i)))
  | instr {w r r' : Code} {k' : κ} {s' : State} : N.pos i = .busy w r k' → Go w r (N.at_ i) r' s' →
      SquadStep P N i [] (some (N.put i (.busy w r' k') s'))
  | leave {w : Code} {k' : κ} : N.pos i = .busy w [] k' →
      SquadStep P N i [] (some (N.put i (.own k') (N.at_ i)))
  | trap {w r : Code} {ins : Instr} {k' : κ} {s' : State} : N.pos i = .busy w (ins :: r) k' →
      exec ins (N.at_ i) = .trap s' → SquadStep P N i [] none

/-- The threads of the instrumented program before they begin. -/
def Squad.arm (M : Squad ι κ) : Squad ι (Stand κ) := ⟨M.mem, fun i => .own (M.pos i), M.cpu⟩

/-- Executions of the instrumented program; `none`: it has been killed. -/
inductive ArmedSquad (P : Guest κ L) (M0 : Squad ι κ) : List (ι × L) → Option (Squad ι (Stand κ)) → Prop
  | start : ArmedSquad P M0 [] (some M0.arm)
  | step {tr : List (ι × L)} {N : Squad ι (Stand κ)} {i : ι} {ls : List L} {c : Option (Squad ι (Stand κ))} :
      ArmedSquad P M0 tr (some N) → SquadStep P N i ls c → ArmedSquad P M0 (tr ++ ls.map (Prod.mk i)) c

/-- Steps of a thread inside of a snippet, while the others rest. -/
inductive Alone (P : Guest κ L) (i : ι) : Squad ι (Stand κ) → Squad ι (Stand κ) → Prop
  | refl (N : Squad ι (Stand κ)) : Alone P i N N
  | step {N N' N'' : Squad ι (Stand κ)} : SquadStep P N i [] (some N') → Alone P i N' N'' → Alone P i N N''

/-! ## What the threads look at, and what they leave alone -/

/-- What a thread does not look at: as `D i` says, and no thread looks at what another has left behind. -/
def Squad.blind (M : Squad ι κ) (D : ι → Blind κ) (i : ι) : Blind κ :=
  { D i with mem := fun k sp x => (D i).mem k sp x ∨ ∃ j, j ≠ i ∧ (D j).mem (M.pos j) (M.sp j) x }

/-- The threads are as `D` says, and nobody writes to the shadow regions, or to what another thread keeps to
itself: `keep i k sp` are the bytes which belong to thread `i` when it is at `k` with this stack pointer. -/
structure Guest.TeamRespects (P : Guest κ L) (D : ι → Blind κ) (g : ι → W) (keep : ι → κ → W → W → Prop)
    (M0 : Squad ι κ) : Prop where
  rsp : ∀ i k, ¬ (D i).hides k .rsp
  region : ∀ i k sp x, InRange x (g i) regionSize → (D i).mem k sp x ∧ keep i k sp x
  apart : ∀ tr M i j x, SquadRun P M0 tr M → keep i (M.pos i) (M.sp i) x → keep j (M.pos j) (M.sp j) x → i = j
  spares : ∀ tr M i t l k' t', SquadRun P M0 tr M → (M.blind D i).Same (M.pos i) (M.at_ i) t →
    P.step (M.pos i) t l k' t' → t'.gs = t.gs ∧ (∀ x, InRange x (g i) regionSize → t'.mem x = t.mem x) ∧
    (∀ j x, j ≠ i → keep j (M.pos j) (M.sp j) x → t'.mem x = t.mem x) ∧
    (∀ r, (D i).frame (M.pos i) = some r → t'.regs r = t.regs r) ∧ (D i).frame k' = (D i).frame (M.pos i)
  forth : ∀ tr M i t l k' s', SquadRun P M0 tr M → (M.blind D i).Same (M.pos i) (M.at_ i) t →
    P.step (M.pos i) (M.at_ i) l k' s' → ∃ t', P.step (M.pos i) t l k' t' ∧ (M.blind D i).Same k' s' t'
  back : ∀ tr M i t l k' t', SquadRun P M0 tr M → (M.blind D i).Same (M.pos i) (M.at_ i) t →
    P.step (M.pos i) t l k' t' → ∃ s', P.step (M.pos i) (M.at_ i) l k' s' ∧ (M.blind D i).Same k' s' t'

/-- Every thread keeps a book, as in `Guest.Accounts`; the return address which a snippet uses and the bytes
below the stack pointer belong to the thread. -/
structure Guest.TeamAccounts (P : Guest κ L) (D : ι → Blind κ) (g : ι → W) (keep : ι → κ → W → W → Prop)
    (M0 : Squad ι κ) (Q : ι → Book → Squad ι κ → Prop) : Prop where
  start : ∀ i, Q i {} M0
  own : ∀ tr M i b l k' s', SquadRun P M0 tr M → Q i b M → P.step (M.pos i) (M.at_ i) l k' s' →
    Q i b (M.put i k' s')
  /-- steps of other threads -/
  other : ∀ tr M i j b ls k' s', SquadRun P M0 tr M → Q j b M → j ≠ i → Bare P (M.pos i) (M.at_ i) ls k' s' →
    Q j b (M.put i k' s')
  pass : ∀ tr M i b c k', SquadRun P M0 tr M → Q i b M → P.site (M.pos i) = some (c, k') →
    ∃ (x : Site) (b' : Book), x.code = c ∧ x.Fits (M.blind D i) (g i) (M.pos i) k' (M.at_ i) ∧
      x.Keeps (M.at_ i) b b' ∧ Q i b' (M.put i k' (M.at_ i)) ∧
      (∀ a, InRange a (x.word (M.at_ i)) 8 → keep i k' (M.sp i) a) ∧
      ∀ a, InRange a (M.sp i - BitVec.ofNat 64 x.below) x.below → keep i k' (M.sp i) a ∧ (D i).mem k' (M.sp i) a

/-- The threads return to where they were called from. -/
def Guest.TeamHonest (P : Guest κ L) (D : ι → Blind κ) (g : ι → W) (keep : ι → κ → W → W → Prop)
    (M0 : Squad ι κ) : Prop := ∃ Q, P.TeamAccounts D g keep M0 Q

/-- The two programs do the same: whatever the outside world can see of one it can see of the other, in the
same order; the snippets do not kill it, and they come to an end. -/
structure Guest.TeamRefines (P : Guest κ L) (D : ι → Blind κ) (M0 : Squad ι κ) : Prop where
  forth : ∀ tr M, SquadRun P M0 tr M → ∃ N, ArmedSquad P M0 tr (some N) ∧ ∀ i, N.pos i = .own (M.pos i) ∧
    (M.blind D i).Same (M.pos i) (M.at_ i) (N.at_ i)
  back : ∀ tr N, ArmedSquad P M0 tr (some N) → ∃ M, SquadRun P M0 tr M ∧ ∀ i, (N.pos i).point = M.pos i ∧
    ∀ k, N.pos i = .own k → (M.blind D i).Same k (M.at_ i) (N.at_ i)
  alive : ∀ tr, ¬ ArmedSquad P M0 tr none
  /-- one can go on where the other can -/
  live : ∀ tr M N i k, SquadRun P M0 tr M → N.pos i = .own k → M.pos i = k →
    (M.blind D i).Same k (M.at_ i) (N.at_ i) → ∀ ls k', (∃ s', Bare P k (M.at_ i) ls k' s') ↔
      ∃ N', SquadStep P N i ls (some N') ∧ (N'.pos i).point = k'
  ends : ∀ tr N i, ArmedSquad P M0 tr (some N) → ∃ N', Alone P i N N' ∧ N'.pos i = .own (N.pos i).point

end Verif
