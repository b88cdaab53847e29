import Verif.Whole

/-!
# Specification: jumps whose targets the parser does not find

If Dyninst does not understand a jump through a table, it leaves the function an edge to the sink
(`/repo/src/passes.h:63-66` takes it for unknown control flow).  The instrumenter sees the code without
the missing edges; the program executes the code with them.

The instrumenter does not change tables it does not understand.  They hold the addresses of original
blocks, so in a lowered function such a jump leads to an original and never to a copy; this is what
`Lowered.dest` says about edges which are not part of the parsed code.
-/

namespace Verif

/-- A jump inside the function with unknown targets. -/
def OpenJump (e : Edge) : Prop := e.type = .indirect ∧ e.sink = true ∧ e.interproc = false

instance (e : Edge) : Decidable (OpenJump e) := inferInstanceAs (Decidable (_ ∧ _))

/-- The block ends with such a jump. -/
def HasOpenJump (co : CodeObj) (b : Blk) : Prop := ∃ e ∈ co.targets b, OpenJump e

/-- The code with the missing edges. -/
def opened (co : CodeObj) (lands : Blk → List Edge) : CodeObj :=
  { co with targets := fun b => co.targets b ++ lands b }

/-- The missing edges: they belong to the jumps with unknown targets, and lead to blocks of the same
function other than its entry, which the parser has found in another way. -/
structure LandsOk (co : CodeObj) (lands : Blk → List Edge) : Prop where
  jump : ∀ b, ∀ e ∈ lands b, HasOpenJump co b
  src : ∀ b, ∀ e ∈ lands b, e.src = b
  type : ∀ b, ∀ e ∈ lands b, e.type = .indirect
  flow : ∀ b, ∀ e ∈ lands b, Flow e
  inside : ∀ f ∈ co.funcs, ∀ b ∈ co.blocks f, ∀ e ∈ lands b, e.trg ∈ co.blocks f ∧ e.trg ≠ co.entry f
  /-- the function is not left by such a jump -/
  exits : ∀ f ∈ co.funcs, ∀ b ∈ co.exitBlocks f, lands b = []

end Verif
