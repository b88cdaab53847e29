import Verif.Cfg
import Verif.ListLemmas

/-!
# Counting safe paths (`/repo/src/passes.h:786-826`)
-/

namespace Verif

/-- The loop over the edges of a block, `/repo/src/passes.h:803-815`; returns the count and
the visited edges.  An indirect edge ends the loop with zero. -/
def cpEdges (visit : List Edge → Blk → Option (Nat × List Edge)) :
    List Edge → Nat → List Edge → Option (Nat × List Edge)
  | [], c, V => some (c, V)
  | e :: es, c, V =>
    if e.sink then cpEdges visit es c V
    else if e.interproc then cpEdges visit es c V
    else if e.type = .catch then cpEdges visit es c V
    else if e ∈ V then cpEdges visit es c V
    else if e.type = .indirect then some (0, V)
    else match visit (e :: V) e.trg with
      | none => none
      | some (n, V) => cpEdges visit es (c + n) V

/-- `countPaths`, `/repo/src/passes.h:793-816`, with a bound on the recursion depth.  `int`
is `Nat`; by `C29_bound` it does not overflow for fewer than 2^31 edges. -/
def countPaths (targets : Blk → List Edge) (unsafeB exits : List Blk) :
    Nat → List Edge → Blk → Option (Nat × List Edge)
  | 0, _, _ => none
  | n + 1, V, b =>
    if b ∈ unsafeB then some (0, V)
    else if b ∈ exits then some (1, V)
    else cpEdges (countPaths targets unsafeB exits n) (targets b) 0 V

/-- All edges leaving the blocks of `f`.  `/repo/src/passes.h:802`. -/
def funcEdges (co : CodeObj) (f : Func) : List Edge := (co.blocks f).flatMap co.targets

/-- `SafePathsCounting::RunLocalAnalysis`, `/repo/src/passes.h:818-825`: the value of
`safe_paths`. -/
def safePathCount (co : CodeObj) (f : Func) (unsafeB : List Blk) : Option Nat :=
  (countPaths co.targets unsafeB (co.exitBlocks f) ((funcEdges co f).length + 1) []
    (co.entry f)).map Prod.fst

end Verif
