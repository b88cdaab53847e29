import Verif.RefineTeam
import Verif.RefineLive

/-!
# Specification: what the threads of an instrumented program do

`Verif.RefinePlan` and `Verif.RefineLive` for the threads of `Verif.RefineTeam`: each of them is a stack of
activations, and made of instructions which declare what they read and write.
-/

namespace Verif

variable {ι κ L : Type}

/-- The bytes which belong to a thread: its shadow region, its stored return addresses, and 16 bytes below its
stack pointer. -/
def stackOf (g : ι → W) (view : ι → κ → List XAct) (i : ι) (k : κ) (sp x : W) : Prop :=
  InRange x (g i) regionSize ∨ (∃ a ∈ view i k, InRange x a.at_ 8) ∨ InRange x (sp - 16#64) 16

variable [DecidableEq ι]

/-- The threads are stacks of activations whose functions are as `m` says, and the snippets are theirs; no other
thread has destroyed the return address. -/
structure Guest.TeamFollows (P : Guest κ L) (m : ProgSem) (frame : Func → Reg)
    (snip : Func → Ev → Place → Code → State → W → Prop) (spoils : Func → Ev → Place → Reg → Prop)
    (D : ι → Blind κ) (view : ι → κ → List XAct) (loose : Prop) (g : ι → W) (M0 : Squad ι κ) : Prop where
  begins : ∀ i, ∀ a ∈ view i (M0.pos i), a.done = [] ∧ M0.mem.read64 a.at_ = a.ra ∧ (loose → ¬ GuardLike a.ra)
  moves : ∀ tr M i l k' s', SquadRun P M0 tr M → P.step (M.pos i) (M.at_ i) l k' s' →
    Moves m loose (view i (M.pos i)) (M.at_ i) (view i k') s'
  sites : ∀ tr M i c k', SquadRun P M0 tr M → P.site (M.pos i) = some (c, k') → ∃ a as ev pl,
    view i (M.pos i) = a :: as ∧ view i k' = { a with done := a.done ++ [ev] } :: as ∧
    Stop m frame snip spoils (D i) (g i) (M.pos i) k' (view i (M.pos i)) c (M.at_ i) a ev pl ∧
    ∀ x j, InRange x a.at_ 8 → j ≠ i → ¬ (D j).mem (M.pos j) (M.sp j) x
  frame : ∀ i k r, (D i).frame k = some r ↔ ∃ a as, view i k = a :: as ∧ m.inReg a.func ∧
    .push ∈ a.done ∧ .check ∉ a.done ∧ r = frame a.func

/-- Return addresses which thread `i` of the original has announced and not taken back, as in `Announced`. -/
inductive TeamAnnounced (P : Guest κ L) (m : ProgSem) (view : ι → κ → List XAct) (M0 : Squad ι κ) (i : ι) :
    List W → Squad ι κ → Prop
  | start : TeamAnnounced P m view M0 i [] M0
  | own {l : List W} {M : Squad ι κ} {k' : κ} {s' : State} {lab : L} : TeamAnnounced P m view M0 i l M →
      P.step (M.pos i) (M.at_ i) lab k' s' → TeamAnnounced P m view M0 i l (M.put i k' s')
  | other {l : List W} {M : Squad ι κ} {j : ι} {k' : κ} {s' : State} {ls : List L} : TeamAnnounced P m view M0 i l M →
      j ≠ i → Bare P (M.pos j) (M.at_ j) ls k' s' → TeamAnnounced P m view M0 i l (M.put j k' s')
  | push {l : List W} {M : Squad ι κ} {k' : κ} {c : Code} {a : XAct} {as : List XAct} :
      TeamAnnounced P m view M0 i l M → P.site (M.pos i) = some (c, k') → view i (M.pos i) = a :: as →
      view i k' = { a with done := a.done ++ [.push] } :: as → ¬ m.inReg a.func →
      TeamAnnounced P m view M0 i (M.mem.read64 a.at_ :: l) (M.put i k' (M.at_ i))
  | check {l post : List W} {M : Squad ι κ} {k' : κ} {c : Code} {a : XAct} {as : List XAct} :
      TeamAnnounced P m view M0 i l M → P.site (M.pos i) = some (c, k') → view i (M.pos i) = a :: as →
      view i k' = { a with done := a.done ++ [.check] } :: as → ¬ m.inReg a.func →
      Finds (M.mem.read64 a.at_) l post → TeamAnnounced P m view M0 i post (M.put i k' (M.at_ i))
  | frame {l : List W} {M : Squad ι κ} {k' : κ} {c : Code} {a : XAct} {as : List XAct} :
      TeamAnnounced P m view M0 i l M → P.site (M.pos i) = some (c, k') → view i (M.pos i) = a :: as →
      m.inReg a.func → TeamAnnounced P m view M0 i l (M.put i k' (M.at_ i))

/-- The equations of live variables for threads: as `Loses`; and a thread neither reads what another has lost nor
writes to what belongs to another. -/
structure TeamLoses (code : κ → Option (Action κ L)) (site : κ → Option (Code × κ)) (D : ι → Blind κ) (g : ι → W)
    (keep : ι → κ → W → W → Prop) (M0 : Squad ι κ) : Prop where
  rsp : ∀ i k, ¬ (D i).hides k .rsp
  region : ∀ i k sp x, InRange x (g i) regionSize → (D i).mem k sp x ∧ keep i k sp x
  apart : ∀ tr M i j x, SquadRun (guestOf code site) M0 tr M → keep i (M.pos i) (M.sp i) x →
    keep j (M.pos j) (M.sp j) x → i = j
  reads : ∀ tr M i o, SquadRun (guestOf code site) M0 tr M → code (M.pos i) = some o →
    (∀ r, (D i).regs (M.pos i) r → ¬ o.uses r) ∧ ((D i).flags (M.pos i) → ¬ o.usesFlags) ∧
    ∀ a, o.loads (M.at_ i) a → ∀ j, ¬ (D j).mem (M.pos j) (M.sp j) a
  spares : ∀ tr M i o, SquadRun (guestOf code site) M0 tr M → code (M.pos i) = some o →
    (∀ r, (D i).frame (M.pos i) = some r → ¬ o.uses r ∧ ¬ o.writes r) ∧
    (∀ a, o.stores (M.at_ i) a → ¬ InRange a (g i) regionSize) ∧
    ∀ a j, j ≠ i → o.stores (M.at_ i) a → ¬ keep j (M.pos j) (M.sp j) a
  goes : ∀ tr M i o l k' s', SquadRun (guestOf code site) M0 tr M → code (M.pos i) = some o →
    o.run (M.at_ i) l = some (k', s') →
    (∀ r, (D i).regs (M.pos i) r → ¬ o.sets r → (D i).regs k' r) ∧
    ((D i).flags (M.pos i) → ¬ o.setsFlags → (D i).flags k') ∧
    (∀ a, (D i).mem (M.pos i) (M.sp i) a → ¬ o.stores (M.at_ i) a → (D i).mem k' (s'.regs .rsp) a) ∧
    (D i).frame k' = (D i).frame (M.pos i)

end Verif
