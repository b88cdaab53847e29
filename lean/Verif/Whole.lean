import Verif.Program
import Verif.Props.Pipeline
import Verif.Props.Lowering
import Verif.Props.Plan

/-!
# Specification: what the functions of an instrumented program do

An instance of `ProgSem` (`Program.lean`): the code of each function is its control flow graph, the
snippets are where the instrumenter's plan puts them, calls and jumps lead where the edges say,
and whatever is not known to be harmless may overwrite return addresses.

Events are whole blocks: a snippet which was moved inside a block counts as standing at its
beginning (a push) or end (a check); `C26`-`C28` are about the inside.  A snippet at the end of
a block stands before the block's last instruction.  Walks follow the edges which satisfy a
condition: those inside the function, with or without exception edges; never jumps whose targets
are not known.
-/

namespace Verif

/-- Execution with the given pushes at the function's entry and checks at the end of the given
blocks. -/
def pointTrace (pushes checks : List Blk) (entry : Blk) (es : List Edge) : List Ev :=
  List.replicate (pushes.count entry) .push ++
    (visits entry es).flatMap fun b => .block b :: List.replicate (checks.count b) .check

/-- What a function treated according to the plan executes along a walk. -/
def Plan.trace : Plan → Blk → List Edge → List Ev
  | .skipped, b, es => (visits b es).map .block
  | .lowered L, b, es => L.trace b es
  | .regFrame pushes checks, b, es => pointTrace pushes checks b es
  | .full pushes checks, b, es => pointTrace pushes checks b es
  | .fastPath p checks, b, es => fpTrace p.1.blk (checks.map fun x => x.1.blk) b es
  | .entryExit pushes checks, b, es =>
    pointTrace (pushes.map fun x => x.1.blk) (checks.map fun x => x.1.blk) b es

/-- A call of anything but a trusted library function or a function of the program. -/
def UnknownCall (co : CodeObj) (e : Edge) : Prop :=
  e.type = .call ∧ (¬ ∃ n, LibCall co e n ∧ TrustedName n) ∧ ¬ ∃ g ∈ co.funcs, DirectCall co e g

/-- A jump out of the function. -/
def TailJump (e : Edge) : Prop := e.interproc = true ∧ e.type ≠ .call ∧ e.type ≠ .ret

/-- A jump to the start of `g`. -/
def JumpTo (co : CodeObj) (e : Edge) (g : Func) : Prop :=
  TailJump e ∧ e.sink = false ∧ co.linkage (co.start e.trg) = none ∧ StartsAt co g e.trg

/-- A jump to the stub of the library function of this name. -/
def LibJump (co : CodeObj) (e : Edge) (n : List Char) : Prop :=
  TailJump e ∧ e.sink = false ∧ co.linkage (co.start e.trg) = some n

/-- A jump to anything but a trusted library function or a function of the program. -/
def UnknownJump (co : CodeObj) (e : Edge) : Prop :=
  TailJump e ∧
  (¬ ∃ n, e.sink = false ∧ co.linkage (co.start e.trg) = some n ∧ TrustedName n) ∧
  ¬ ∃ g ∈ co.funcs, JumpTo co e g

section
variable (ok : Edge → Prop) (co : CodeObj) (plan : Func → Plan)

/-- The function, following edges which satisfy `ok`, may start by executing these events. -/
def StartsOn (f : Func) (t : List Ev) : Prop :=
  f ∈ co.funcs ∧ ∃ t' es b', Walk co.targets ok (co.entry f) es b' ∧
    t ++ t' = (plan f).trace (co.entry f) es

/-- The events bring the function to the last instruction of this exit block. -/
def EndsOn (f : Func) (t : List Ev) (b : Blk) : Prop :=
  f ∈ co.funcs ∧ b ∈ co.exitBlocks f ∧ isNonreturningCall (co.targets b) = false ∧
  ∃ es, Walk co.targets ok (co.entry f) es b ∧ t = (plan f).trace (co.entry f) es

/-- The events bring the function to the last instruction of this block: if the block has a
check, it has been executed. -/
def AtEndOn (f : Func) (t : List Ev) (b : Blk) : Prop :=
  StartsOn ok co plan f t ∧ (∃ t', t = t' ++ [.block b] ∨ t = t' ++ [.block b, .check]) ∧
  ¬ StartsOn ok co plan f (t ++ [.check])

/-- The instrumented program.  `inReg` tells which functions keep the return address in a
register, `stays` which ones never return. -/
def semOn (info : StackInfo) (inReg stays : Func → Prop) : ProgSem where
  trace := StartsOn ok co plan
  complete f t := ∃ b, EndsOn ok co plan f t b
  danger f t :=
    (StartsOn ok co plan f t ∧ ∃ t' b, t = t' ++ [.block b] ∧ ∃ i ∈ info.insns b, DangerousInsn i) ∨
    (∃ b, AtEndOn ok co plan f t b ∧ ∃ e ∈ co.targets b, UnknownCall co e) ∨
    (∃ b, EndsOn ok co plan f t b ∧ ∃ e ∈ co.targets b, UnknownJump co e)
  calls f t g := g ∈ co.funcs ∧
    ((∃ b, AtEndOn ok co plan f t b ∧ ∃ e ∈ co.targets b, DirectCall co e g ∨ UnknownCall co e) ∨
     (∃ b, EndsOn ok co plan f t b ∧ ∃ e ∈ co.targets b, UnknownJump co e))
  tails f t g := g ∈ co.funcs ∧ ∃ b, EndsOn ok co plan f t b ∧ ∃ e ∈ co.targets b, JumpTo co e g
  inReg := inReg
  stays := stays

end

/-- The function may start by executing these events, without exceptions. -/
def StartsWith : CodeObj → (Func → Plan) → Func → List Ev → Prop := StartsOn Follow

/-- The events bring the function to the last instruction of this exit block. -/
def EndsAt : CodeObj → (Func → Plan) → Func → List Ev → Blk → Prop := EndsOn Follow

/-- The events bring the function to the last instruction of this block. -/
def AtEnd : CodeObj → (Func → Plan) → Func → List Ev → Blk → Prop := AtEndOn Follow

/-- The instrumented program, without exceptions. -/
def semOf (co : CodeObj) (info : StackInfo) (plan : Func → Plan) (inReg stays : Func → Prop) : ProgSem :=
  semOn Follow co plan info inReg stays

end Verif
