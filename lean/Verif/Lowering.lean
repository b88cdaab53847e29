import Verif.Cfg

/-!
# Instrumentation lowering (`/repo/src/instrument.cc:319-565`)

The function's control flow graph is duplicated; edges from safe to unsafe code are redirected
into the copy; the push goes on those edges and the checks at the exits of the copy.

A patch block is a block together with a bit telling the copy from the original.  The only
thing that changes about the graph is where the edges lead, so the graph is a map from edges
of originals and copies to blocks.  PatchAPI's `cloneBlock` is taken to give the copy the same
outgoing edges as the original, still leading to originals, as the comment at
`/repo/src/instrument.cc:341` says.
-/

namespace Verif

/-- A `PatchBlock`: the block and whether it is a clone.  `/repo/src/instrument.cc:332-333`. -/
abbrev PNode := Blk × Bool

/-- Where each edge of the originals (`false`) and of the clones (`true`) leads.
`/repo/src/instrument.cc:340-349`. -/
abbrev Dest := Edge → Bool → PNode

/-- The command line flags consulted by `instrument.cc` (`/repo/src/instrument.cc:38-51`).
`asserts` tells whether `assert` is compiled in. -/
structure InstrFlags where
  shadowStack : String := "light"
  threatModel : String := "trust_system"
  libs : Bool := false
  disableLowering : Bool := false
  disableRegFrame : Bool := false
  disableRegSaveOpt : Bool := false
  disableSfe : Bool := false
  asserts : Bool := true

/-- `skipPatchEdges`, `/repo/src/instrument.cc:319-325`. -/
def skipPatchEdges (e : Edge) : Bool :=
  if e.sink || e.interproc then true
  else if e.type = .catch then true
  else false

/-- `targetHasIndJump`, `/repo/src/instrument.cc:362-370`. -/
def hasIndJump (targets : Blk → List Edge) (b : Blk) : Bool :=
  (targets b).any fun te => !skipPatchEdges te && te.type = .indirect

/-- The two sets filled by `RedirectTransitionEdges`.  `/repo/src/instrument.cc:352-354`. -/
structure RState where
  redirect : List Edge := []
  visited : List Edge := []

/-- The loop of `RedirectTransitionEdges`, `/repo/src/instrument.cc:355-378`; `stop` is the
condition of lines 371-373. -/
def rtEdges (visit : RState → Blk → Option RState) (stop : Blk → Bool) :
    List Edge → RState → Option RState
  | [], s => some s
  | e :: es, s =>
    if skipPatchEdges e then rtEdges visit stop es s
    else if e ∈ s.visited then rtEdges visit stop es s
    else
      let s := { s with visited := e :: s.visited }
      if stop e.trg then rtEdges visit stop es { s with redirect := e :: s.redirect }
      else match visit s e.trg with
        | none => none
        | some s => rtEdges visit stop es s

/-- `RedirectTransitionEdges`, `/repo/src/instrument.cc:352-379`, with a bound on the recursion
depth. -/
def redirectEdges (targets : Blk → List Edge) (stop : Blk → Bool) :
    Nat → RState → Blk → Option RState
  | 0, _, _ => none
  | n + 1, s, b => rtEdges (redirectEdges targets stop n) stop (targets b) s

/-- The condition of lines 371-373.  `/repo/src/instrument.cc:371-373`. -/
def stopAt (co : CodeObj) (s : FuncSummary) (b : Blk) : Bool :=
  s.unsafeBlocks.contains b || hasIndJump co.targets b

/-- `PatchModifier::redirect(e, b)` for the given copy of `e`.
`/repo/src/instrument.cc:347,465`. -/
def Dest.redirect (d : Dest) (e : Edge) (c : Bool) (n : PNode) : Dest := fun e' c' =>
  if e' = e ∧ c' = c then n else d e' c'

/-- One iteration of the inner loop at `/repo/src/instrument.cc:344-348`.  An edge to a block
outside the function has no clone to lead to: `cloneBlockMap[..]` is then null. -/
def cloneEdge (blocks : List Blk) (d : Dest) (e : Edge) : Option Dest :=
  if skipPatchEdges e then some d
  else if e.trg ∈ blocks then some (d.redirect e true (e.trg, true))
  else none

/-- `CloneFunctionCFG`, `/repo/src/instrument.cc:327-350`.  Without assertions the redirection,
written inside `assert`, is not done. -/
def cloneCFG (asserts : Bool) (co : CodeObj) (f : Func) (d : Dest) : Option Dest :=
  if asserts then
    (co.blocks f).foldlM (fun d b => (co.targets b).foldlM (cloneEdge (co.blocks f)) d) d
  else some d

/-- The loop at `/repo/src/instrument.cc:464-466`. -/
def redirectAll (asserts : Bool) (blocks : List Blk) (redirect : List Edge) (d : Dest) : Option Dest :=
  if asserts then
    redirect.foldlM (fun d e =>
      if e.trg ∈ blocks then some (d.redirect e false (e.trg, true)) else none) d
  else some d

/-- The loop of `GetReachableBlocks`, `/repo/src/instrument.cc:385-393`. -/
def grEdges (visit : List PNode → PNode → Option (List PNode)) (d : Dest) (c : Bool) :
    List Edge → List PNode → Option (List PNode)
  | [], V => some V
  | e :: es, V =>
    if e.interproc then grEdges visit d c es V
    else if e.sink then grEdges visit d c es V
    else if e.type = .ret ∨ e.type = .catch then grEdges visit d c es V
    else match visit V (d e c) with
      | none => none
      | some V => grEdges visit d c es V

/-- `GetReachableBlocks`, `/repo/src/instrument.cc:381-394`, with a bound on the recursion
depth. -/
def reachableBlocks (targets : Blk → List Edge) (d : Dest) : Nat → List PNode → PNode →
    Option (List PNode)
  | 0, _, _ => none
  | k + 1, V, n =>
    if n ∈ V then some V
    else grEdges (reachableBlocks targets d k) d n.2 (targets n.1) (n :: V)

/-- `b->sources()` in the patched function: all edges of originals and clones leading to `n`.
`/repo/src/instrument.cc:408`. -/
def sourcesOf (co : CodeObj) (f : Func) (d : Dest) (n : PNode) : List (Edge × Bool) :=
  ((co.blocks f).flatMap co.targets).flatMap fun e =>
    [false, true].filterMap fun c => if d e c = n then some (e, c) else none

/-- The redirected edges and the blocks with coalesced pushes.
`/repo/src/instrument.cc:396-398`. -/
structure CState where
  redirect : List Edge
  inst : List PNode := []

/-- Membership in the set `redirect`, which holds edges of originals.
`/repo/src/instrument.cc:409`. -/
def CState.has (s : CState) (p : Edge × Bool) : Bool := !p.2 && s.redirect.contains p.1

/-- One iteration of `CoalesceEdgeInstrumentation`, `/repo/src/instrument.cc:402-426`. -/
def coalesceBlock (sources : PNode → List (Edge × Bool)) (reach : List PNode) (s : CState)
    (b : PNode) : CState :=
  if !b.2 then s
  else
    let src := sources b
    let instEdges := (src.filter fun p => s.has p).length
    let others := src.filter fun p => !s.has p
    let hasCatch := others.any fun p => p.1.type = .catch
    let notInst := (others.filter fun p => p.1.type ≠ .catch ∧ (p.1.src, p.2) ∈ reach).length
    if !hasCatch && instEdges > 0 && notInst == 0 then
      { redirect := s.redirect.filter fun e => !src.contains (e, false), inst := b :: s.inst }
    else s

/-- `CoalesceEdgeInstrumentation`, `/repo/src/instrument.cc:396-427`; `reach` is the result of
`GetReachableBlocks` in iteration order. -/
def coalesce (sources : PNode → List (Edge × Bool)) (reach : List PNode) (redirect : List Edge) :
    CState :=
  reach.foldl (coalesceBlock sources reach) { redirect }

/-- The kinds of push snippets (`/repo/src/instrument.cc:118-150`). -/
inductive PushKind
  /-- `RegisterPushSnippet(summary, height)` -/
  | reg (height : Int)
  /-- `StackPushSnippet(summary, useOrig, height, useFixed)` -/
  | stack (useOrig : Bool) (height : Int) (useFixed : Bool)
  deriving DecidableEq, Repr

/-- The kinds of check snippets.  `/repo/src/instrument.cc:544-558`. -/
inductive PopKind
  /-- `RegisterPopSnippet(summary)` -/
  | reg
  /-- `StackPopSnippet(summary, useOrig)` -/
  | stack (useOrig : Bool)
  deriving DecidableEq, Repr

/-- `IsNonreturningCall`, `/repo/src/instrument.cc:154-166`, for a block with the given
edges. -/
def isNonreturningCall (targets : List Edge) : Bool :=
  targets.any (fun e => e.type = .call) && !targets.any (fun e => e.type = .callFt)

/-- A lowered function: the new graph and the snippets.  A snippet with an address goes before
that instruction of its block, one without at the block's beginning or end.
`/repo/src/instrument.cc:460-563`. -/
structure Lowered where
  dest : Dest
  edgePush : List (Edge × PushKind)
  blockPush : List (PNode × PushKind × Option Nat)
  pops : List (Blk × PopKind × Option Nat)

/-- The test at `/repo/src/instrument.cc:447-457`: may the function use the red zone and a push
would have to save a register below `rsp`? -/
def redZoneConflict (fl : InstrFlags) (co : CodeObj) (s : FuncSummary) (redirect : List Edge) : Bool :=
  let useReg := s.shouldUseRegisterFrame && !fl.disableRegFrame
  !useReg && !s.redZoneAccess.isEmpty && redirect.any fun e =>
    match s.entryFixedData.lookup (co.start e.trg) with
    | none => true
    | some mid => mid.saveCount < 2

/-- The push on an edge, `/repo/src/instrument.cc:474-492`; `none` is a failed assertion. -/
def edgePushOf (fl : InstrFlags) (co : CodeObj) (s : FuncSummary) (useReg : Bool) (e : Edge) :
    Option (Edge × PushKind) := do
  let height ← s.blockEndSPHeight.lookup (co.start e.src)
  let mid := if fl.disableRegSaveOpt then none else s.entryFixedData.lookup (co.start e.trg)
  if useReg then return (e, .reg height)
  else match mid with
    | none => return (e, .stack false height false)
    | some _ => return (e, .stack false height true)

/-- The push in a block, `/repo/src/instrument.cc:503-530`. -/
def blockPushOf (fl : InstrFlags) (co : CodeObj) (s : FuncSummary) (useReg : Bool) (b : PNode) :
    Option (PNode × PushKind × Option Nat) := do
  let height ← s.blockEntrySPHeight.lookup (co.start b.1)
  let mid := if fl.disableRegSaveOpt then none else s.entryData.lookup (co.start b.1)
  if useReg then return (b, .reg height, none)
  else match mid with
    | none => return (b, .stack false height false, none)
    | some mid => return (b, .stack true height false, some mid.newAddr)

/-- The check at an exit, `/repo/src/instrument.cc:533-559`. -/
def popOf (fl : InstrFlags) (co : CodeObj) (s : FuncSummary) (useReg : Bool) (b : Blk) :
    Option (Blk × PopKind × Option Nat) :=
  if isNonreturningCall (co.targets b) then none
  else
    let mid := if fl.disableRegSaveOpt then none else s.exitData.lookup (co.start b)
    if useReg then some (b, .reg, none)
    else match mid with
      | none => some (b, .stack false, none)
      | some mid => some (b, .stack true, some mid.newAddr)

/-- The transformation, `/repo/src/instrument.cc:459-562`, once the redirected edges are known.
The asserted results of PatchAPI calls other than the redirections are taken to be as
expected. -/
def lowerWith (fl : InstrFlags) (co : CodeObj) (f : Func) (s : FuncSummary) (redirect : List Edge) :
    Option Lowered := do
  let useReg := s.shouldUseRegisterFrame && !fl.disableRegFrame
  let d ← cloneCFG fl.asserts co f fun e _ => (e.trg, false)
  let d ← redirectAll fl.asserts (co.blocks f) redirect d
  let reach ← reachableBlocks co.targets d (2 * (co.blocks f).length + 1) [] (co.entry f, false)
  let cs := coalesce (sourcesOf co f d) reach redirect
  let edgePush ← cs.redirect.mapM (edgePushOf fl co s useReg)
  let blockPush ← cs.inst.mapM (blockPushOf fl co s useReg)
  return { dest := d, edgePush, blockPush,
           pops := (co.exitBlocks f).filterMap (popOf fl co s useReg) }

/-- `DoInstrumentationLowering`, `/repo/src/instrument.cc:429-565`.  The outer `none` is
undefined behaviour or a failed assertion, the inner one means that the function was left
alone. -/
def doLowering (fl : InstrFlags) (co : CodeObj) (f : Func) (s : Option FuncSummary) :
    Option (Option Lowered) :=
  match s with
  | none => some none
  | some s =>
    if fl.disableLowering then some none
    else if !s.lowerInstrumentation (co.entry f) then some none
    else if s.hasIndirectCf then some none
    else do
      let r ← redirectEdges co.targets (stopAt co s) (((co.blocks f).flatMap co.targets).length + 1) {}
        (co.entry f)
      if r.redirect.any fun e => (s.blockEndSPHeight.lookup (co.start e.src)).isNone then some none
      else if redZoneConflict fl co s r.redirect then some none
      else (lowerWith fl co f s r.redirect).map some

end Verif
