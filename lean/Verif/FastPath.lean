import Verif.Lowering

/-!
# The fast path shape (`/repo/src/instrument.cc:185-285`)

Functions whose entry block branches, without writing memory, either straight to a block that
only returns, or into the rest of the function.
-/

namespace Verif

/-- The control flow graph of a function as BPatch presents it (`f->getCFG()`): edges inside the
function only.  `writes b` has, for each instruction of `b`, whether it writes memory, and
`returns b` whether its category is `c_ReturnInsn`.  `/repo/src/instrument.cc:189`. -/
structure FlowGraph where
  entries : List Blk
  exits : List Blk
  blocks : List Blk
  out : Blk → List Edge
  writes : Blk → List Bool
  returns : Blk → List Bool

/-- `b->getIncomingEdges(..)`.  `/repo/src/instrument.cc:239,246,265`. -/
def FlowGraph.inc (g : FlowGraph) (b : Blk) : List Edge :=
  (g.blocks.flatMap g.out).filter fun e => e.trg = b

/-- The variables assigned by the loop at `/repo/src/instrument.cc:224-235`. -/
structure FastScan where
  taken : Bool := false
  notTaken : Bool := false
  fastExit : Option Blk := none
  entry : Option Blk := none

/-- One iteration of that loop.  `/repo/src/instrument.cc:222-233`. -/
def FastScan.step (exits : List Blk) (s : FastScan) (e : Edge) : FastScan :=
  let s := { s with
    taken := s.taken || decide (e.type = EdgeType.condTaken)
    notTaken := s.notTaken || decide (e.type = EdgeType.condNotTaken) }
  if e.trg ∈ exits then { s with fastExit := some e.trg } else { s with entry := some e.trg }

/-- The loop at `/repo/src/instrument.cc:265-278` over the edges into the fast exit: the
blocks to be checked, or `none` if one of them has several successors. -/
def slowExits (g : FlowGraph) (funcEntry : Blk) : List Edge → Option (List Blk)
  | [] => some []
  | e :: es =>
    if e.src ≠ funcEntry then
      if (g.out e.src).length ≠ 1 then none
      else (slowExits g funcEntry es).map (e.src :: ·)
    else slowExits g funcEntry es

/-- `CheckFastPathFunction`, `/repo/src/instrument.cc:185-285`: the entry of the slow path and
the blocks at whose end the return address is checked. -/
def checkFastPath (disableLowering : Bool) (g : FlowGraph) : Option (Blk × List Blk) :=
  if disableLowering then none
  else match g.entries with
    | [funcEntry] =>
      if (g.writes funcEntry).any id then none
      else if (g.out funcEntry).length ≠ 2 then none
      else
        let s := (g.out funcEntry).foldl (FastScan.step g.exits) {}
        match s.taken && s.notTaken, s.fastExit, s.entry with
        | true, some fastExit, some entry =>
          if (g.inc funcEntry).length > 0 then none
          else if (g.inc entry).length ≠ 1 then none
          else if g.returns fastExit ≠ [true] then none
          else match slowExits g funcEntry (g.inc fastExit) with
            | none => none
            | some l => some (entry, l ++ g.exits.filter fun b => b ≠ fastExit)
        | _, _, _ => none
    | _ => none

end Verif
