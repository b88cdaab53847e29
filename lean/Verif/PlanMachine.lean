import Verif.Machine
import Verif.Props.PlanPoints

/-!
# Specification: an instrumented program whose snippets are those of the plan

As `Verif.Machine`, but a snippet is the code which the emitter returns for a push or a check of
the function's plan, executed where the plan puts it.  Nothing is said about the word from which
it takes the return address; instead the stack pointer is where the program's own instructions
put it.
-/

namespace Verif

/-- Where a snippet stands: on an edge, at the beginning (a push) or at the end (a check) of a
block, or before the instruction of the block at this address. -/
inductive Place
  | edge (e : Edge)
  | blk (b : Blk)
  | insn (b : Blk) (addr : Nat)
  deriving DecidableEq

/-- In the block, at the given address if there is one. -/
def Place.inBlk (b : Blk) : Option Nat → Place
  | none => .blk b
  | some a => .insn b a

/-- The place of a point (`Plan.lean`). -/
def Pt.place (p : Pt) : Place := if p.kind = .insn then .insn p.blk p.addr else .blk p.blk

/-- The pushes of a plan, made in light mode. -/
def Plan.pushes : Plan → List (Place × PushKind)
  | .lowered L => L.edgePush.map (fun x => (.edge x.1, x.2)) ++
      L.blockPush.map fun x => (.inBlk x.1.1 x.2.2, x.2.1)
  | .regFrame ps _ => ps.map fun b => (.blk b, .reg 0)
  | .fastPath p _ => [(p.1.place, p.2)]
  | .entryExit ps _ => ps.map fun p => (p.1.place, p.2)
  | .full _ _ | .skipped => []

/-- The checks of a plan, made in light mode. -/
def Plan.checks : Plan → List (Place × PopKind)
  | .lowered L => L.pops.map fun x => (.inBlk x.1 x.2.2, x.2.1)
  | .regFrame _ cs => cs.map fun b => (.blk b, .reg)
  | .fastPath _ cs | .entryExit _ cs => cs.map fun p => (p.1.place, p.2)
  | .full _ _ | .skipped => []

/-- The code emitted for a push there (`/repo/src/instrument.cc:86-150`): the emitter looks at the
first instruction of the point's block and of the edge's target. -/
def PushKind.emit (jf : JitFlags) (js : JitSummary) (co : CodeObj) (k : PushKind) : Place → Option Code
  | .edge e => k.code jf js (co.start e.src) (co.start e.trg)
  | .blk b | .insn b _ => k.code jf js (co.start b) 0

/-- The code emitted for a check there. -/
def PopKind.emit (jf : JitFlags) (js : JitSummary) (co : CodeObj) (k : PopKind) : Place → Option Code
  | .edge _ => none
  | .blk b | .insn b _ => k.code jf js (co.start b) (co.last b)

/-- The instructions of a block up to a return. -/
def beforeRet (l : List (BInsn × Sem)) : List (BInsn × Sem) := l.takeWhile fun p => p.1.op != .ret

/-- What is known about the binary beyond its control flow graph. -/
structure Binary where
  /-- the instructions of a block and what they do -/
  code : Blk → List (BInsn × Sem)
  /-- the height of the stack pointer in a function at the beginning of a block -/
  hin : Func → Blk → Int
  /-- ... and at the end of a block, before the return if it ends in one -/
  hout : Func → Blk → Int

/-- The state is one in which the push at the place is executed in a call of `f` whose return
address is stored at `R`. -/
def Binary.AtPush (B : Binary) (f : Func) (R : W) : Place → State → Prop
  | .edge e, s => AtHeight R (B.hout f e.src) s
  | .blk b, s => AtHeight R (B.hin f b) s
  | .insn b a, s => ∃ pre p post st, B.code b = pre ++ p :: post ∧ p.1.addr = a ∧
      AtHeight R (B.hin f b) st ∧ s = runSem pre st

/-- ... in which the check at the place is executed.  The place is reached with a stack pointer
which the rest of the block takes to the height of the block's end. -/
def Binary.AtCheck (B : Binary) (f : Func) (R : W) : Place → State → Prop
  | .edge _, _ => False
  | .blk b, s => AtHeight R (B.hout f b) s
  | .insn b a, s => ∃ pre p post, beforeRet (B.code b) = pre ++ p :: post ∧ p.1.addr = a ∧
      AtHeight R (B.hout f b) (runSem (p :: post) s)

/-- In the state `s` of a call of `f`, whose return address is stored at `R`, this code of a push
or check of the plan is about to be executed. -/
def Binary.Snippet (B : Binary) (jf : JitFlags) (js : Func → JitSummary) (co : CodeObj)
    (plan : Func → Plan) (f : Func) : Ev → Code → State → W → Prop
  | .push, c, s, R => ∃ pl k, (pl, k) ∈ (plan f).pushes ∧ k.emit jf (js f) co pl = some c ∧
      B.AtPush f R pl s
  | .check, c, s, R => ∃ pl k, (pl, k) ∈ (plan f).checks ∧ k.emit jf (js f) co pl = some c ∧
      B.AtCheck f R pl s
  | .block _, _, _, _ => False

/-- The register is dead before the instruction of the block at this address, as far as the block
shows. -/
def Binary.DeadAt (B : Binary) (b : Blk) (a : Nat) (r : Reg) : Prop :=
  ∃ pre p post, B.code b = pre ++ p :: post ∧ p.1.addr = a ∧ r ∈ deadRegs ((p :: post).map Prod.fst)

/-- The registers which a snippet of `f` at the place may clobber: those dead at the entry of the function
or found for its exit, if these are used (`/repo/src/jit.cc:104-135`, `:353-359`), and those dead where it
stands. -/
def Binary.Spoils (B : Binary) (jf : JitFlags) (co : CodeObj) (dead : Func → DeadNames) (f : Func) :
    Ev → Place → Reg → Prop
  | .push, .edge e, r => (jf.optimizeRegs = true ∧ r.name ∈ (dead f).entry) ∨
      r ∈ deadRegs ((B.code e.trg).map Prod.fst)
  | .push, .blk _, r => jf.optimizeRegs = true ∧ r.name ∈ (dead f).entry
  | .push, .insn b a, r | .check, .insn b a, r => B.DeadAt b a r
  | .check, .blk b, r => jf.optimizeRegs = true ∧ ∃ d, (dead f).exit (co.last b) = some d ∧ r.name ∈ d
  | .check, .edge _, _ | .block _, _, _ => False

/-- The number of bytes which it may use below the stack pointer. -/
def Place.width : Place → Nat
  | .insn _ _ => 8
  | .edge _ | .blk _ => 16

/-- One step of a thread whose shadow region is at `g`; `snip f ev c s R`: the snippet `c` of `f`
is executed in the state `s` with the return address at `R`. -/
inductive EStep (m : ProgSem) (frame : Func → Reg) (snip : Func → Ev → Code → State → W → Prop)
    (g : W) : XProc → XProc → Prop
  /-- instructions of the program; stored return addresses change at dangerous moments only -/
  | work {s s' : State} {a : XAct} {as : List XAct} : Spares m frame g a s s' →
      m.danger a.func a.done ∨ SameSlots (a :: as) s s' →
      EStep m frame snip g (.run s (a :: as)) (.run s' (a :: as))
  /-- a block begins -/
  | block {s : State} {a : XAct} {as : List XAct} {b : Blk} : m.trace a.func (a.done ++ [.block b]) →
      EStep m frame snip g (.run s (a :: as)) (.run s ({ a with done := a.done ++ [.block b] } :: as))
  /-- a call stores its return address somewhere -/
  | call {s s' : State} {a : XAct} {as : List XAct} {h : Func} (p : W) : m.calls a.func a.done h →
      Spares m frame g a s s' → SameSlots (a :: as) s s' →
      EStep m frame snip g (.run s (a :: as)) (.run s' (⟨h, [], s'.mem.read64 p, p⟩ :: a :: as))
  /-- a snippet; there is room on the shadow stack and 16 bytes below the stack pointer -/
  | snippet {s s' : State} {a : XAct} {as : List XAct} {ev : Ev} {code : Code} :
      m.trace a.func (a.done ++ [ev]) → snip a.func ev code s a.at_ → Clear g (a :: as) 16 s →
      HasRoom g s → Exits code s s' → (ev = .check → s.mem.read64 a.at_ = a.ra) →
      EStep m frame snip g (.run s (a :: as)) (.run s' ({ a with done := a.done ++ [ev] } :: as))
  | accept {s s' : State} {a : XAct} {as : List XAct} {code : Code} :
      m.trace a.func (a.done ++ [.check]) → snip a.func .check code s a.at_ →
      Clear g (a :: as) 16 s → Exits code s s' → s.mem.read64 a.at_ ≠ a.ra →
      EStep m frame snip g (.run s (a :: as)) (.diverted (s.mem.read64 a.at_))
  | trap {s : State} {a : XAct} {as : List XAct} {ev : Ev} {code : Code} :
      m.trace a.func (a.done ++ [ev]) → snip a.func ev code s a.at_ → Clear g (a :: as) 16 s →
      HasRoom g s → Traps code s → EStep m frame snip g (.run s (a :: as)) .killed
  /-- a return takes whatever the place holds -/
  | ret {s : State} {a : XAct} {as : List XAct} : m.complete a.func a.done →
      s.mem.read64 a.at_ = a.ra → EStep m frame snip g (.run s (a :: as)) (.run s as)
  | hijack {s : State} {a : XAct} {as : List XAct} : m.complete a.func a.done → ¬ m.stays a.func →
      s.mem.read64 a.at_ ≠ a.ra →
      EStep m frame snip g (.run s (a :: as)) (.hijacked (s.mem.read64 a.at_))
  /-- a jump to another function leaves the return address where it is -/
  | tail {s : State} {a : XAct} {as : List XAct} {h : Func} : m.complete a.func a.done →
      m.tails a.func a.done h →
      EStep m frame snip g (.run s (a :: as)) (.run s ({ a with func := h, done := [] } :: as))

/-- Any number of steps. -/
inductive ERun (m : ProgSem) (frame : Func → Reg) (snip : Func → Ev → Code → State → W → Prop)
    (g : W) : XProc → XProc → Prop
  | refl (p : XProc) : ERun m frame snip g p p
  | step {p q r : XProc} : ERun m frame snip g p q → EStep m frame snip g q r →
      ERun m frame snip g p r

/-- As `XProtected`. -/
structure EProtected (m : ProgSem) (frame : Func → Reg) (snip : Func → Ev → Code → State → W → Prop)
    (g : W) (f : Func) : Prop where
  recorded : ∀ s0 p s a as, Recorded g [] s0 → ERun m frame snip g (.start f p s0) (.run s (a :: as)) →
    m.danger a.func a.done → ∃ l, Recorded g l s ∧
      ∀ x ∈ a :: as, ¬ m.stays x.func → x.ra ∈ l ∨ m.inReg x.func ∧ s.regs (frame x.func) = x.ra
  unchecked : ∀ s0 p v, Recorded g [] s0 → ¬ ERun m frame snip g (.start f p s0) (.hijacked v)
  accepted : ∀ s0 p s acts v, Recorded g [] s0 → ERun m frame snip g (.start f p s0) (.run s acts) →
    EStep m frame snip g (.run s acts) (.diverted v) → v = 0 ∨ ∃ x ∈ acts, v = x.ra
  alarm : ∀ s0 p s acts, Recorded g [] s0 → ERun m frame snip g (.start f p s0) (.run s acts) →
    EStep m frame snip g (.run s acts) .killed → ∃ a as, acts = a :: as ∧ s.mem.read64 a.at_ ≠ a.ra

end Verif
