import Verif.Refine
import Verif.Unwind
import Verif.PlanMachine
import Verif.FullMode

/-!
# Specification: what the original of an instrumented program does

The original, as in `Verif.Refine`, seen as a stack of activations: a control point determines which
activations there are, and what each has executed.  Return addresses stay where they have been stored.
Nothing here refers to an analysis; what is known of the functions is a `ProgSem`.
-/

namespace Verif

/-- What a step of the original can do to the activations: nothing, begin a block, call a function, return,
jump to another function (one it may call, if the jump is indirect), or abandon activations (`loose`: programs do that). -/
inductive Moves (m : ProgSem) (loose : Prop) : List XAct → State → List XAct → State → Prop
  | work {acts : List XAct} {s s' : State} : SameSlots acts s s' → Moves m loose acts s acts s'
  | block {a : XAct} {as : List XAct} {b : Blk} {s s' : State} : m.trace a.func (a.done ++ [.block b]) →
      SameSlots (a :: as) s s' →
      Moves m loose (a :: as) s ({ a with done := a.done ++ [.block b] } :: as) s'
  | call {a : XAct} {as : List XAct} {h : Func} {s s' : State} (p : W) : m.calls a.func a.done h →
      SameSlots (a :: as) s s' → (loose → ¬ GuardLike (s'.mem.read64 p)) →
      Moves m loose (a :: as) s (⟨h, [], s'.mem.read64 p, p⟩ :: a :: as) s'
  | ret {a : XAct} {as : List XAct} {s s' : State} : m.complete a.func a.done → SameSlots as s s' →
      Moves m loose (a :: as) s as s'
  | tail {a : XAct} {as : List XAct} {h : Func} {s s' : State} : m.complete a.func a.done →
      m.tails a.func a.done h ∨ m.calls a.func a.done h → SameSlots (a :: as) s s' →
      Moves m loose (a :: as) s ({ a with func := h, done := [] } :: as) s'
  | unwind {u : XAct} {up : List XAct} {a : XAct} {as : List XAct} {s s' : State} : loose →
      SameSlots (a :: as) s s' → Moves m loose (u :: up ++ a :: as) s (a :: as) s'

/-- In the state `s` the snippet `c` of the innermost activation `a` is at the control point `k`, before `k'`:
it is the code of the event `ev` which `a` may execute next, as `snip` says, and it destroys only what the
program does not look at: the registers in `spoils`, some bytes below the stack pointer and, if it is a check,
the flags. -/
structure Stop {κ : Type} (m : ProgSem) (frame : Func → Reg)
    (snip : Func → Ev → Place → Code → State → W → Prop) (spoils : Func → Ev → Place → Reg → Prop) (D : Blind κ)
    (g : W) (k k' : κ) (acts : List XAct) (c : Code) (s : State) (a : XAct) (ev : Ev) (pl : Place) : Prop where
  trace : m.trace a.func (a.done ++ [ev])
  code : snip a.func ev pl c s a.at_
  clear : Clear g acts 16 s
  visible : ∀ x, InRange x a.at_ 8 → ¬ D.mem k (s.regs .rsp) x
  mem : ∀ x, D.mem k (s.regs .rsp) x ∨ InRange x (s.regs .rsp - BitVec.ofNat 64 pl.width) pl.width →
    D.mem k' (s.regs .rsp) x
  regs : ∀ r, D.regs k r ∨ spoils a.func ev pl r → D.regs k' r
  flags : D.flags k ∨ ev = .check → D.flags k'
  unused : m.inReg a.func → ev = .push → ¬ D.regs k (frame a.func)

/-- The program is one of activations whose functions are as `m` says, and the snippets are theirs. -/
structure Guest.Follows {κ L : Type} (P : Guest κ L) (m : ProgSem) (frame : Func → Reg)
    (snip : Func → Ev → Place → Code → State → W → Prop) (spoils : Func → Ev → Place → Reg → Prop)
    (D : Blind κ) (view : κ → List XAct) (loose : Prop) (g : W) (k0 : κ) (s0 : State) : Prop where
  /-- it begins at the entries of functions -/
  begins : ∀ a ∈ view k0, a.done = [] ∧ s0.mem.read64 a.at_ = a.ra ∧ (loose → ¬ GuardLike a.ra)
  moves : ∀ tr k s l k' s', BareRun P k0 s0 tr k s → P.step k s l k' s' →
    Moves m loose (view k) s (view k') s'
  sites : ∀ tr k s c k', BareRun P k0 s0 tr k s → P.site k = some (c, k') → ∃ a as ev pl,
    view k = a :: as ∧ view k' = { a with done := a.done ++ [ev] } :: as ∧
    Stop m frame snip spoils D g k k' (view k) c s a ev pl
  /-- the frame register belongs to the snippets between push and check -/
  frame : ∀ k r, D.frame k = some r ↔ ∃ a as, view k = a :: as ∧ m.inReg a.func ∧
    .push ∈ a.done ∧ .check ∉ a.done ∧ r = frame a.func

/-- Return addresses which the original has announced by passing pushes and not taken back by passing checks:
what the shadow stack of the instrumented program will hold. -/
inductive Announced {κ L : Type} (P : Guest κ L) (m : ProgSem) (view : κ → List XAct) (k0 : κ) (s0 : State) :
    List W → κ → State → Prop
  | start : Announced P m view k0 s0 [] k0 s0
  | own {l : List W} {k k' : κ} {s s' : State} {lab : L} : Announced P m view k0 s0 l k s →
      P.step k s lab k' s' → Announced P m view k0 s0 l k' s'
  | push {l : List W} {k k' : κ} {s : State} {c : Code} {a : XAct} {as : List XAct} :
      Announced P m view k0 s0 l k s → P.site k = some (c, k') → view k = a :: as →
      view k' = { a with done := a.done ++ [.push] } :: as → ¬ m.inReg a.func →
      Announced P m view k0 s0 (s.mem.read64 a.at_ :: l) k' s
  | check {l post : List W} {k k' : κ} {s : State} {c : Code} {a : XAct} {as : List XAct} :
      Announced P m view k0 s0 l k s → P.site k = some (c, k') → view k = a :: as →
      view k' = { a with done := a.done ++ [.check] } :: as → ¬ m.inReg a.func →
      Finds (s.mem.read64 a.at_) l post → Announced P m view k0 s0 post k' s
  | frame {l : List W} {k k' : κ} {s : State} {c : Code} {a : XAct} {as : List XAct} :
      Announced P m view k0 s0 l k s → P.site k = some (c, k') → view k = a :: as → m.inReg a.func →
      Announced P m view k0 s0 l k' s

/-- In the state `s` of a call of `f`, whose return address is stored at `R`, this code of the push or check
of the plan at this place is about to be executed. -/
def Binary.SnippetAt (B : Binary) (jf : JitFlags) (js : Func → JitSummary) (co : CodeObj)
    (plan : Func → Plan) (f : Func) : Ev → Place → Code → State → W → Prop
  | .push, pl, c, s, R => ∃ k, (pl, k) ∈ (plan f).pushes ∧ k.emit jf (js f) co pl = some c ∧ B.AtPush f R pl s
  | .check, pl, c, s, R => ∃ k, (pl, k) ∈ (plan f).checks ∧ k.emit jf (js f) co pl = some c ∧
      B.AtCheck f R pl s
  | .block _, _, _, _, _ => False

/-- The same in full mode (`/repo/src/instrument.cc:118-134`, `:858-863`). -/
def Binary.FullSnippetAt (B : Binary) (jf : JitFlags) (co : CodeObj) (plan : Func → Plan) (f : Func) :
    Ev → Place → Code → State → W → Prop
  | .push, .blk b, c, s, R => ∃ ps cs, plan f = .full ps cs ∧ b ∈ ps ∧
      jitStackPush jf none false 0 false (co.start b) 0 = some c ∧ AtHeight R (B.hin f b) s
  | .check, .blk b, c, s, R => ∃ ps cs, plan f = .full ps cs ∧ b ∈ cs ∧
      jitStackPop jf none false (co.start b) (co.last b) = some c ∧ AtHeight R (B.hout f b) s
  | _, _, _, _, _ => False

end Verif
