import Verif.Summary

/-!
# Parsed code as Dyninst presents it

Input data of the analyses: edges, blocks and functions of a `ParseAPI::CodeObject`.  The
model takes them as arbitrary values.
-/

namespace Verif

/-- `ParseAPI::EdgeTypeEnum`.  `/repo/src/passes.h:61-72`. -/
inductive EdgeType where
  | call | condTaken | condNotTaken | indirect | direct | fallthrough | catch | callFt | ret
  deriving DecidableEq, Repr

/-- `ParseAPI::Edge`; `id` tells edges with equal contents apart.  The target of a sink edge
is meaningless.  `/repo/src/passes.h:58-91`. -/
structure Edge where
  id : Nat
  src : Blk
  trg : Blk
  type : EdgeType
  sink : Bool := false
  interproc : Bool := false
  deriving DecidableEq, Repr

/-- A `ParseAPI::CodeObject` as the passes see it.  `/repo/src/passes.h:55-103`. -/
structure CodeObj where
  /-- `co->funcs()` -/
  funcs : List Func
  /-- `f->addr()` -/
  addr : Func → Nat
  /-- `f->entry()` -/
  entry : Func → Blk
  /-- `f->blocks()` -/
  blocks : Func → List Blk
  /-- `f->exitBlocks()` -/
  exitBlocks : Func → List Blk
  /-- `b->targets()` -/
  targets : Blk → List Edge
  /-- `b->start()` -/
  start : Blk → Nat
  /-- `b->last()`, address of the last instruction -/
  last : Blk → Nat
  /-- `b->getFuncs(..)`: functions the block belongs to -/
  funcsAt : Blk → List Func
  /-- `co->cs()->linkage()`: names of library stubs by address -/
  linkage : Nat → Option (List Char)
  /-- `f->returnBlocks()` -/
  returnBlocks : Func → List Blk := fun _ => []
  /-- `b->end()`, first address after the block -/
  endAddr : Blk → Nat := fun _ => 0

end Verif
