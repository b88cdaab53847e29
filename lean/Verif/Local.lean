import Verif.CallGraph

/-!
# Function-local passes: size filter, stack heights (`/repo/src/passes.h:109-363`)
-/

namespace Verif

/-- The loop over functions of `Pass::RunPass`, `/repo/src/pass_manager.h:355-357`. -/
def runLocal (funcs : List Func) (pass : Func → FuncSummary → FuncSummary) (S : Sums) : Sums :=
  funcs.foldl (fun S f => S.set f (pass f (S f))) S

theorem runLocal_cons (f : Func) (funcs : List Func) (pass : Func → FuncSummary → FuncSummary)
    (S : Sums) : runLocal (f :: funcs) pass S = runLocal funcs pass (S.set f (pass f (S f))) := rfl

theorem runLocal_not_mem (funcs : List Func) (pass : Func → FuncSummary → FuncSummary) (S : Sums)
    (g : Func) (h : g ∉ funcs) : runLocal funcs pass S g = S g := by
  induction funcs generalizing S with
  | nil => rfl
  | cons f l ih =>
    rw [runLocal_cons, ih _ (fun hm => h (List.mem_cons_of_mem _ hm)),
      Sums.set_other _ _ (fun e => h (by rw [e]; exact List.mem_cons_self))]

/-- `co->funcs()` is a set, so each summary is transformed once. -/
theorem runLocal_apply (funcs : List Func) (hnd : funcs.Nodup)
    (pass : Func → FuncSummary → FuncSummary) (S : Sums) (g : Func) (h : g ∈ funcs) :
    runLocal funcs pass S g = pass g (S g) := by
  induction funcs generalizing S with
  | nil => cases h
  | cons f l ih =>
    rw [runLocal_cons]
    have hf := (List.nodup_cons.mp hnd)
    by_cases e : g = f
    · subst e
      rw [runLocal_not_mem _ _ _ _ hf.1, Sums.set_same]
    · rw [ih hf.2 _ ((List.mem_cons.mp h).resolve_left e), Sums.set_other _ _ e]

/-! ## Large functions -/

/-- `kCutoffSize_`, `/repo/src/passes.h:144`. -/
def cutoffSize : Nat := 20000

/-- `end`, `/repo/src/passes.h:121-128`. -/
def lastEnd (co : CodeObj) (f : Func) : Nat :=
  (co.returnBlocks f).foldl (fun e b => max e (co.endAddr b))
    ((co.exitBlocks f).foldl (fun e b => max e (co.endAddr b)) 0)

/-- `LargeFunctionFilter::RunLocalAnalysis`, `/repo/src/passes.h:115-142`.  Addresses are
natural numbers; the subtraction is guarded by the comparison, so it is that of `unsigned
long`. -/
def largeFilter (co : CodeObj) (f : Func) (s : FuncSummary) : FuncSummary :=
  if s.assumeUnsafe then s
  else if lastEnd co f < co.addr f then s
  else if lastEnd co f - co.addr f > cutoffSize then { s with assumeUnsafe := true }
  else s

/-! ## Stack heights -/

/-- The kinds of `DataflowAPI::Absloc` an assignment's left side can have.
`/repo/src/passes.h:289-317`. -/
inductive AbsLoc where
  /-- stack slot at this offset from the stack pointer before the call, i.e. the return
  address is at -8 -/
  | stack (off : Int)
  | unknown
  /-- a static address -/
  | heap
  | register
  deriving DecidableEq, Repr

/-- What the pass asks about one instruction.  `/repo/src/passes.h:265-330`. -/
structure StackInsn where
  addr : Nat
  /-- category call or return -/
  frameSwitch : Bool := false
  writesMemory : Bool := false
  /-- left sides of the instruction's assignments -/
  outs : List AbsLoc := []

/-- Answers of Dyninst's instruction decoder and stack analysis.  `/repo/src/passes.h:246-263`. -/
structure StackInfo where
  insns : Blk → List StackInsn
  /-- `findSP(b, b->end())` if neither top nor bottom -/
  heightEnd : Blk → Option Int
  /-- `findSP(b, b->start())` if neither top nor bottom -/
  heightStart : Blk → Option Int

/-- `s->unknown_writes[b].insert(addr)`.  `/repo/src/passes.h:305`. -/
def insertUnknown (m : List (Blk × List Nat)) (b : Blk) (a : Nat) : List (Blk × List Nat) :=
  match m with
  | [] => [(b, [a])]
  | (b', as) :: rest => if b' = b then (b', setInsert as a) :: rest else (b', as) :: insertUnknown rest b a

/-- One assignment, `/repo/src/passes.h:283-315`. -/
def shAssign (b : Blk) (addr : Nat) (s : FuncSummary) : AbsLoc → FuncSummary
  | .stack off =>
    if off ≥ -8 then
      { s with selfUnsafeWrites := true, unsafeBlocks := setInsert s.unsafeBlocks b }
    else s
  | .unknown =>
    { s with unknownWrites := insertUnknown s.unknownWrites b addr,
             unsafeBlocks := setInsert s.unsafeBlocks b }
  | .heap => s
  | .register => s

/-- One instruction, `/repo/src/passes.h:264-345`.  The tables `all_writes`, `stack_writes`
and `stack_heights` are left out here. -/
def shInsn (b : Blk) (s : FuncSummary) (i : StackInsn) : FuncSummary :=
  if i.frameSwitch then s
  else if i.writesMemory then i.outs.foldl (shAssign b i.addr) s
  else s

/-- The heights recorded for a block, `/repo/src/passes.h:253-260`. -/
def shHeights (co : CodeObj) (info : StackInfo) (b : Blk) (s : FuncSummary) : FuncSummary :=
  let s := match info.heightEnd b with
    | some h => { s with blockEndSPHeight := mapSet s.blockEndSPHeight (co.start b) (-8 - h) }
    | none => s
  match info.heightStart b with
  | some h => { s with blockEntrySPHeight := mapSet s.blockEntrySPHeight (co.start b) (-8 - h) }
  | none => s

/-- One block.  `/repo/src/passes.h:252-347`. -/
def shBlock (co : CodeObj) (info : StackInfo) (s : FuncSummary) (b : Blk) : FuncSummary :=
  (info.insns b).foldl (shInsn b) (shHeights co info b s)

/-- `StackHeightAnalysis::RunLocalAnalysis`, `/repo/src/passes.h:240-347`. -/
def stackHeight (co : CodeObj) (info : StackInfo) (f : Func) (s : FuncSummary) : FuncSummary :=
  if s.assumeUnsafe then s else (co.blocks f).foldl (shBlock co info) s

/-! ## Unsafe calls -/

/-- `safe_func`, `/repo/src/passes.h:836-845`. -/
def safeFuncs (co : CodeObj) (S : Sums) : List Nat :=
  (co.funcs.filter (fun f =>
    (match co.linkage (co.addr f) with
      | some name => isSafePLTCall name
      | none => true) && !(S f).writes)).map co.addr

/-- The loop over the edges of a block, `/repo/src/passes.h:850-862`: is the block inserted
in `unsafe_blocks`? -/
def ucBlock (co : CodeObj) (safe : List Nat) : List Edge → Bool
  | [] => false
  | e :: rest =>
    if e.sink && e.type == .call then true
    else if e.type == .call then !safe.contains (co.start e.trg)
    else ucBlock co safe rest

/-- The loop over the blocks of a function, `/repo/src/passes.h:848-863`. -/
def ucFunc (co : CodeObj) (safe : List Nat) (f : Func) (s : FuncSummary) : FuncSummary :=
  (co.blocks f).foldl (fun s b =>
    if ucBlock co safe (co.targets b) then { s with unsafeBlocks := setInsert s.unsafeBlocks b }
    else s) s

/-- `UnsafeCallBlockAnalysis::RunGlobalAnalysis`, `/repo/src/passes.h:833-863`. -/
def ucRun (co : CodeObj) (S : Sums) : Sums := runLocal co.funcs (ucFunc co (safeFuncs co S)) S

end Verif
