import Verif.PlanMachine
import Verif.Whole

/-!
# Specification: full mode

With `--shadow_stack=full` no function is analysed; every function of `.text` which may return gets a
push at its entry and a check at its exits (`/repo/src/instrument.cc:708`, `:858-863`), emitted without
a summary.
-/

namespace Verif

/-- Return addresses may be overwritten while the function or what it calls or jumps to is executed. -/
inductive Risky (co : CodeObj) (info : StackInfo) : Func → Prop
  | block {f : Func} {b : Blk} : b ∈ co.blocks f → DangerBlock co info b → Risky co info f
  | call {f g : Func} {b : Blk} {e : Edge} : b ∈ co.blocks f → e ∈ co.targets b → DirectCall co e g →
      Risky co info g → Risky co info f
  | jump {f g : Func} {b : Blk} {e : Edge} : b ∈ co.exitBlocks f → e ∈ co.targets b → JumpTo co e g →
      Risky co info g → Risky co info f

/-- In the state `s` of a call of `f`, whose return address is stored at `R`, this code of a push or
check inserted in full mode is about to be executed: `StackPushSnippet(nullptr, false)` at an entry,
`StackPopSnippet(nullptr, false)` at an exit (`/repo/src/instrument.cc:118-134`, `:858-863`). -/
def Binary.FullSnippet (B : Binary) (jf : JitFlags) (co : CodeObj) (plan : Func → Plan) (f : Func) :
    Ev → Code → State → W → Prop
  | .push, c, s, R => ∃ ps cs, plan f = .full ps cs ∧ ∃ b ∈ ps,
      jitStackPush jf none false 0 false (co.start b) 0 = some c ∧ AtHeight R (B.hin f b) s
  | .check, c, s, R => ∃ ps cs, plan f = .full ps cs ∧ ∃ b ∈ cs,
      jitStackPop jf none false (co.start b) (co.last b) = some c ∧ AtHeight R (B.hout f b) s
  | .block _, _, _, _ => False

end Verif
