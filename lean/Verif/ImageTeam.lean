import Verif.Image
import Verif.RefineTeam

/-!
# Instrumented programs with several threads in memory

As `Image`, with threads as in `RefineTeam`: all execute the same text, and another thread may go on after
every instruction.
-/

namespace Verif

variable {ι κ L : Type}

/-- Where a thread is: at a point of the program, or `rip` is `x`, in the bytes inserted at `k`. -/
inductive Footing (κ : Type)
  | own (k : κ)
  | inside (k : κ) (x : W)

/-- The point of the program at which the original is meanwhile: behind the snippet. -/
def Footing.point (I : Image κ) : Footing κ → κ
  | .own k => k
  | .inside k _ => match I.site k with
    | some (_, _, k') => k'
    | none => k

/-- What a thread is doing. -/
def Squad.doing (N : Squad ι (Footing κ)) (i : ι) : Doing κ :=
  match N.pos i with
  | .own k => .own k (N.at_ i)
  | .inside k x => .inside k x (N.at_ i)

variable [DecidableEq ι]

/-- After a step of thread `i`; SIGILL ends the process. -/
def Squad.become (N : Squad ι (Footing κ)) (i : ι) : Doing κ → Option (Squad ι (Footing κ))
  | .own k s => some (N.put i (.own k) s)
  | .inside k x s => some (N.put i (.inside k x) s)
  | .killed => none

/-- The threads before they begin. -/
def Squad.load (M : Squad ι κ) : Squad ι (Footing κ) := ⟨M.mem, fun i => .own (M.pos i), M.cpu⟩

/-- Executions; `none`: the process has been killed. -/
inductive TeamTicks (P : Guest κ L) (I : Image κ) (M0 : Squad ι κ) :
    List (ι × L) → Option (Squad ι (Footing κ)) → Prop
  | start : TeamTicks P I M0 [] (some M0.load)
  | step {tr : List (ι × L)} {N : Squad ι (Footing κ)} {i : ι} {ls : List L} {d : Doing κ} :
      TeamTicks P I M0 tr (some N) → Tick P I (N.doing i) ls d →
      TeamTicks P I M0 (tr ++ ls.map (Prod.mk i)) (N.become i d)

/-- Steps of a thread inside of a snippet, while the others rest. -/
inductive Lone (P : Guest κ L) (I : Image κ) (i : ι) : Squad ι (Footing κ) → Squad ι (Footing κ) → Prop
  | refl (N : Squad ι (Footing κ)) : Lone P I i N N
  | step {N N' N'' : Squad ι (Footing κ)} {d : Doing κ} : Tick P I (N.doing i) [] d → N.become i d = some N' →
      Lone P I i N' N'' → Lone P I i N N''

/-- The program in memory does what the original does: as `Guest.TeamRefines`. -/
structure Image.TeamRefines (I : Image κ) (P : Guest κ L) (D : ι → Blind κ) (M0 : Squad ι κ) : Prop where
  forth : ∀ tr M, SquadRun P M0 tr M → ∃ N, TeamTicks P I M0 tr (some N) ∧ ∀ i, N.pos i = .own (M.pos i) ∧
    (M.blind D i).Same (M.pos i) (M.at_ i) (N.at_ i)
  back : ∀ tr N, TeamTicks P I M0 tr (some N) → ∃ M, SquadRun P M0 tr M ∧ ∀ i, (N.pos i).point I = M.pos i ∧
    ∀ k, N.pos i = .own k → (M.blind D i).Same k (M.at_ i) (N.at_ i)
  alive : ∀ tr, ¬ TeamTicks P I M0 tr none
  /-- one can go on where the other can -/
  live : ∀ tr M (N : Squad ι (Footing κ)) i k, SquadRun P M0 tr M → N.pos i = .own k → M.pos i = k →
    (M.blind D i).Same k (M.at_ i) (N.at_ i) →
    (∀ l k', (∃ s', P.step k (M.at_ i) l k' s') ↔ ∃ t', Tick P I (N.doing i) [l] (.own k' t')) ∧
    ((∃ y, P.site k = some y) ↔ ∃ x, Tick P I (N.doing i) [] (.inside k x (N.at_ i)))
  ends : ∀ tr N i, TeamTicks P I M0 tr (some N) → ∃ N', Lone P I i N N' ∧ N'.pos i = .own ((N.pos i).point I)

/-- The same moment of an execution of the bytes and of one of the lists of instructions. -/
structure Abreast (I : Image κ) (N : Squad ι (Footing κ)) (A : Squad ι (Stand κ)) : Prop where
  mem : N.mem = A.mem
  cpu : N.cpu = A.cpu
  point : ∀ i, (N.pos i).point I = (A.pos i).point
  own : ∀ i k, N.pos i = .own k ↔ A.pos i = .own k

end Verif
