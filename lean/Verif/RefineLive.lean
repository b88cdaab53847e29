import Verif.RefinePlan

/-!
# Specification: programs of instructions, and what is live in them

The originals of `Verif.Refine`, made of instructions which declare what they read and write, and the
equations of live variables: a register, the flags or a byte of memory whose value has been lost must not be
read before it has been written.
-/

namespace Verif

/-- An instruction: what the outside world may see of it, where it leads and the state after it (it may have
several outcomes, such as the results of a system call), and what it declares: registers read, written, and
written in full; flags read, and written in full; bytes read and bytes written. -/
structure Action (κ L : Type) where
  run : State → L → Option (κ × State)
  uses : Reg → Prop
  writes : Reg → Prop
  sets : Reg → Prop
  usesFlags : Prop
  setsFlags : Prop
  loads : State → W → Prop
  stores : State → W → Prop

variable {κ L : Type}

/-- The results of an instruction in states which differ in `X`, `F` and `A` only. -/
def SameResult (X : Reg → Prop) (F : Prop) (A : W → Prop) : Option (κ × State) → Option (κ × State) → Prop
  | none, none => True
  | some (k, s), some (k', t) => k' = k ∧ Near X F A s t
  | _, _ => False

/-- The instruction does what it declares: it keeps what it does not write, and what it does and where it writes
depends only on what it reads. -/
structure Action.Fair (o : Action κ L) : Prop where
  keep : ∀ s l k' s', o.run s l = some (k', s') → s'.gs = s.gs ∧ (∀ r, ¬ o.writes r → s'.regs r = s.regs r) ∧
    ∀ a, ¬ o.stores s a → s'.mem a = s.mem a
  dep : ∀ (X : Reg → Prop) (F : Prop) (A : W → Prop) s t, Near X F A s t → (∀ r, X r → ¬ o.uses r) →
    (F → ¬ o.usesFlags) → (∀ a, o.loads s a → ¬ A a) →
    (∀ a, o.stores t a ↔ o.stores s a) ∧
    ∀ l, SameResult (fun r => X r ∧ ¬ o.sets r) (F ∧ ¬ o.setsFlags) (fun a => A a ∧ ¬ o.stores s a) (o.run s l) (o.run t l)

/-- The program with these instructions and snippets. -/
def guestOf (code : κ → Option (Action κ L)) (site : κ → Option (Code × κ)) : Guest κ L where
  step k s l k' s' := ∃ o, code k = some o ∧ o.run s l = some (k', s')
  site := site

/-- `D` solves the equations of live variables wherever the original gets: what has been lost is not read, and
remains lost until it is written.  The frame register is left alone, and so is the shadow region at `g`. -/
structure Loses (code : κ → Option (Action κ L)) (site : κ → Option (Code × κ)) (D : Blind κ) (g : W) (k0 : κ)
    (s0 : State) : Prop where
  rsp : ∀ k, ¬ D.hides k .rsp
  region : ∀ k sp x, InRange x g regionSize → D.mem k sp x
  reads : ∀ tr k s o, BareRun (guestOf code site) k0 s0 tr k s → code k = some o →
    (∀ r, D.regs k r → ¬ o.uses r) ∧ (D.flags k → ¬ o.usesFlags) ∧
    (∀ a, o.loads s a → ¬ D.mem k (s.regs .rsp) a)
  spares : ∀ tr k s o, BareRun (guestOf code site) k0 s0 tr k s → code k = some o →
    (∀ r, D.frame k = some r → ¬ o.uses r ∧ ¬ o.writes r) ∧ ∀ a, o.stores s a → ¬ InRange a g regionSize
  goes : ∀ tr k s o l k' s', BareRun (guestOf code site) k0 s0 tr k s → code k = some o →
    o.run s l = some (k', s') →
    (∀ r, D.regs k r → ¬ o.sets r → D.regs k' r) ∧ (D.flags k → ¬ o.setsFlags → D.flags k') ∧
    (∀ a, D.mem k (s.regs .rsp) a → ¬ o.stores s a → D.mem k' (s'.regs .rsp) a) ∧ D.frame k' = D.frame k

/-- The registers which a snippet of `f` at the place may clobber, if registers dead at the entry of the
function (`/repo/src/passes.h:578-579`, `/repo/src/jit.cc:104-135`) were used there only. -/
def Binary.EntrySpoils (B : Binary) (jf : JitFlags) (dead : Func → DeadNames) (co : CodeObj) (f : Func) :
    Ev → Place → Reg → Prop
  | .push, .edge e, r => r ∈ deadRegs ((B.code e.trg).map Prod.fst)
  | .push, .blk b, r => b = co.entry f ∧ jf.optimizeRegs = true ∧ r.name ∈ (dead f).entry
  | ev, pl, r => B.Spoils jf co dead f ev pl r

/-- The registers in `dead` have been lost wherever an activation begins. -/
def DeadAtEntry {κ : Type} (D : Blind κ) (view : κ → List XAct) (dead : Func → DeadNames) : Prop :=
  ∀ k a as, view k = a :: as → a.done = [] → ∀ r : Reg, r.name ∈ (dead a.func).entry → D.regs k r

end Verif
