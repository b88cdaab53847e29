import Verif.CallGraph

/-!
# Exception analysis (`/repo/src/passes.h:866-914`, `/repo/src/instrument.cc:653-672`)
-/

namespace Verif

/-- One iteration of the loop over callees, `/repo/src/passes.h:902-909`; the accumulator is
the traversal state and `ret`. -/
def exCallee (visit : Trav → Func → Option (Trav × Bool)) (funcs : List Func)
    (acc : Trav × Bool) (c : Func) : Option (Trav × Bool) :=
  if c ∈ acc.1.visited then some (acc.1, acc.2 && (acc.1.sums c).writes)
  else if c ∈ funcs then
    match visit acc.1 c with
    | none => none
    | some (t, r) => some (t, acc.2 && r)
  else none

/-- Assignment to `s->func_exception_safe` followed by a return of the same value.
`/repo/src/passes.h:893-894,897-898,911-912`. -/
def exFinish (t : Trav) (f : Func) (r : Bool) : Trav × Bool :=
  ({ t with sums := t.sums.set f { t.sums f with funcExceptionSafe := r } }, r)

/-- `VisitFunction`, `/repo/src/passes.h:888-913`, with a bound on the recursion depth. -/
def exVisit (funcs : List Func) : Nat → Trav → Func → Option (Trav × Bool)
  | 0, _, _ => none
  | n + 1, t, f =>
    let t := { t with visited := f :: t.visited }
    if !(t.sums f).pltCalls.isEmpty then some (exFinish t f false)
    else if (t.sums f).hasUnknownCf then some (exFinish t f false)
    else match (t.sums f).callees.foldlM (exCallee (exVisit funcs n) funcs) (t, true) with
      | none => none
      | some (t, ret) => some (exFinish t f ret)

/-- One iteration of the first loop of `RunGlobalAnalysis`, `/repo/src/passes.h:876-881`. -/
def exTop (funcs : List Func) (t : Trav) (f : Func) : Option Trav :=
  if f ∈ t.visited then some t else (exVisit funcs (funcs.length + 1) t f).map Prod.fst

/-- `FunctionExceptionAnalysis::RunGlobalAnalysis`, `/repo/src/passes.h:872-885`: the new
summaries and the addresses inserted in `exception_free_func`. -/
def exRun (funcs : List Func) (addr : Func → Nat) (S : Sums) : Option (Sums × List Nat) :=
  (funcs.foldlM (exTop funcs) { sums := S, visited := [] }).map fun t =>
    (t.sums, (funcs.filter (fun f => (t.sums f).funcExceptionSafe)).map addr)

/-- The callee looked up for a block by `MarkExceptionSafeCalls`,
`/repo/src/instrument.cc:656-667`; zero if there is none. -/
def markedCallee (co : CodeObj) : List Edge → Nat
  | [] => 0
  | e :: rest =>
    if e.type == .call && !e.sink then co.start e.trg
    else if e.interproc && (e.type == .direct || e.type == .condTaken) then co.start e.trg
    else markedCallee co rest

/-- `MarkExceptionSafeCalls`, `/repo/src/instrument.cc:653-672`: the blocks of `f` marked
exception safe, given `exception_free_func`. -/
def markExceptionSafeCalls (co : CodeObj) (free : List Nat) (f : Func) : List Blk :=
  (co.blocks f).filter (fun b => free.contains (markedCallee co (co.targets b)))

end Verif
