import Verif.RefineCores
import Verif.RefineLive

/-!
# Specification: what the threads of an instrumented program do on x86

`Verif.RefineTeamPlan` for the threads of `Verif.RefineCores`, whose writes wait in store buffers.
-/

namespace Verif

variable {ι κ L : Type} [DecidableEq ι]

/-- The threads are stacks of activations whose functions are as `m` says, and the snippets are theirs; the return addresses of a
thread are stored in its area. -/
structure CoreGuest.Follows (P : CoreGuest κ L) (m : ProgSem) (frame : Func → Reg)
    (snip : Func → Ev → Place → Code → State → W → Prop) (spoils : Func → Ev → Place → Reg → Prop)
    (D : ι → Blind κ) (view : ι → κ → List XAct) (loose : Prop) (g : ι → W) (A : ι → W → Prop) (M0 : Cores ι κ) : Prop where
  begins : ∀ i, ∀ a ∈ view i (M0.pos i), a.done = [] ∧ (M0.view i).read64 a.at_ = a.ra ∧ (loose → ¬ GuardLike a.ra)
  stack : ∀ tr M i, CoreRun P M0 tr M → ∀ a ∈ view i (M.pos i), ∀ x, InRange x a.at_ 8 → A i x
  moves : ∀ tr M i ws l k' c, CoreRun P M0 tr M → (P.locked (M.pos i) → M.buf i = []) → P.step (M.pos i) (M.at_ i) ws l k' c →
    Moves m loose (view i (M.pos i)) (M.at_ i) (view i k') (c.with_ (afterWrites (M.view i) ws))
  sites : ∀ tr M i c k', CoreRun P M0 tr M → P.site (M.pos i) = some (c, k') → ∃ a as ev pl,
    view i (M.pos i) = a :: as ∧ view i k' = { a with done := a.done ++ [ev] } :: as ∧
    Stop m frame snip spoils (D i) (g i) (M.pos i) k' (view i (M.pos i)) c (M.at_ i) a ev pl
  frame : ∀ i k r, (D i).frame k = some r ↔ ∃ a as, view i k = a :: as ∧ m.inReg a.func ∧
    .push ∈ a.done ∧ .check ∉ a.done ∧ r = frame a.func

/-- Return addresses which thread `i` of the original has announced and not taken back, as in `Announced`. -/
inductive CoreAnnounced (P : CoreGuest κ L) (m : ProgSem) (view : ι → κ → List XAct) (M0 : Cores ι κ) (i : ι) :
    List W → Cores ι κ → Prop
  | start : CoreAnnounced P m view M0 i [] M0
  | move {l : List W} {M M' : Cores ι κ} {j : ι} {ls : List L} : CoreAnnounced P m view M0 i l M → CoreMove P M j ls M' →
      CoreAnnounced P m view M0 i l M'
  | other {l : List W} {M : Cores ι κ} {j : ι} {c : Code} {k' : κ} : CoreAnnounced P m view M0 i l M → j ≠ i →
      P.site (M.pos j) = some (c, k') → CoreAnnounced P m view M0 i l (M.put j k' (M.cpu j) [])
  | push {l : List W} {M : Cores ι κ} {k' : κ} {c : Code} {a : XAct} {as : List XAct} :
      CoreAnnounced P m view M0 i l M → P.site (M.pos i) = some (c, k') → view i (M.pos i) = a :: as →
      view i k' = { a with done := a.done ++ [.push] } :: as → ¬ m.inReg a.func →
      CoreAnnounced P m view M0 i ((M.view i).read64 a.at_ :: l) (M.put i k' (M.cpu i) [])
  | check {l post : List W} {M : Cores ι κ} {k' : κ} {c : Code} {a : XAct} {as : List XAct} :
      CoreAnnounced P m view M0 i l M → P.site (M.pos i) = some (c, k') → view i (M.pos i) = a :: as →
      view i k' = { a with done := a.done ++ [.check] } :: as → ¬ m.inReg a.func →
      Finds ((M.view i).read64 a.at_) l post → CoreAnnounced P m view M0 i post (M.put i k' (M.cpu i) [])
  | frame {l : List W} {M : Cores ι κ} {k' : κ} {c : Code} {a : XAct} {as : List XAct} :
      CoreAnnounced P m view M0 i l M → P.site (M.pos i) = some (c, k') → view i (M.pos i) = a :: as →
      m.inReg a.func → CoreAnnounced P m view M0 i l (M.put i k' (M.cpu i) [])

/-! ## Programs of instructions -/

/-- The program with these instructions and snippets; `wr` says which bytes an instruction writes, and `lock` which of them are
locked. -/
def coreOf (code : κ → Option (Action κ L)) (wr : κ → State → L → List (W × Byte)) (lock : κ → Prop)
    (site : κ → Option (Code × κ)) : CoreGuest κ L where
  step k s ws l k' c := ∃ o s', code k = some o ∧ o.run s l = some (k', s') ∧ ws = wr k s l ∧ c = s'.cpu
  locked := lock
  site := site

/-- The bytes are those which the instruction writes, it declares that, and they depend on what it reads only. -/
structure Action.Writes (o : Action κ L) (wr : State → L → List (W × Byte)) : Prop where
  after : ∀ s l k' s', o.run s l = some (k', s') → afterWrites s.mem (wr s l) = s'.mem
  stores : ∀ s l k' s', o.run s l = some (k', s') → ∀ w ∈ wr s l, o.stores s w.1
  dep : ∀ (X : Reg → Prop) (F : Prop) (A : W → Prop) s t l, Near X F A s t → (∀ r, X r → ¬ o.uses r) →
    (F → ¬ o.usesFlags) → (∀ a, o.loads s a → ¬ A a) → wr t l = wr s l

/-- The equations of live variables for threads: as `Loses`; what has been lost is in the thread's own area, and a thread neither
reads nor writes the areas of others. -/
structure CoreLoses (code : κ → Option (Action κ L)) (wr : κ → State → L → List (W × Byte)) (lock : κ → Prop)
    (site : κ → Option (Code × κ)) (D : ι → Blind κ) (g : ι → W) (A : ι → W → Prop) (M0 : Cores ι κ) : Prop where
  rsp : ∀ i k, ¬ (D i).hides k .rsp
  region : ∀ i k sp x, InRange x (g i) regionSize → (D i).mem k sp x
  hidden : ∀ i k sp x, (D i).mem k sp x → A i x
  apart : ∀ i j x, A i x → A j x → i = j
  waits : ∀ i j, j ≠ i → ∀ w ∈ M0.buf i, ¬ A j w.1
  reads : ∀ tr M i o, CoreRun (coreOf code wr lock site) M0 tr M → code (M.pos i) = some o →
    (∀ r, (D i).regs (M.pos i) r → ¬ o.uses r) ∧ ((D i).flags (M.pos i) → ¬ o.usesFlags) ∧
    ∀ a, o.loads (M.at_ i) a → ¬ (D i).mem (M.pos i) (M.sp i) a ∧ ∀ j, j ≠ i → ¬ A j a
  spares : ∀ tr M i o, CoreRun (coreOf code wr lock site) M0 tr M → code (M.pos i) = some o →
    (∀ r, (D i).frame (M.pos i) = some r → ¬ o.uses r ∧ ¬ o.writes r) ∧
    ∀ a, o.stores (M.at_ i) a → ¬ InRange a (g i) regionSize ∧ ∀ j, j ≠ i → ¬ A j a
  goes : ∀ tr M i o l k' s', CoreRun (coreOf code wr lock site) M0 tr M → code (M.pos i) = some o →
    o.run (M.at_ i) l = some (k', s') →
    (∀ r, (D i).regs (M.pos i) r → ¬ o.sets r → (D i).regs k' r) ∧
    ((D i).flags (M.pos i) → ¬ o.setsFlags → (D i).flags k') ∧
    (∀ a, (D i).mem (M.pos i) (M.sp i) a → ¬ o.stores (M.at_ i) a → (D i).mem k' (s'.regs .rsp) a) ∧
    (D i).frame k' = (D i).frame (M.pos i)

end Verif
