import Verif.Cfg

/-!
# The component graph (`/repo/src/passes.h:147-231`) and its order (`/repo/src/heap.h:356-374`)

Components are numbered in the order in which they are allocated.
-/

namespace Verif

/-- `SCComponent`, `/repo/src/pass_manager.h:103-140`.  `parents` is never filled.  Sets are
lists, maps are lists of pairs of which the first one with a key counts. -/
structure Comp where
  blocks : List Blk := []
  returns : List Blk := []
  children : List Nat := []
  outgoing : List (Blk × Nat) := []
  targets : List (Nat × Blk) := []
  deriving DecidableEq

/-- The components allocated so far, `visited` and `block_to_sc`.  `/repo/src/passes.h:165-193`. -/
structure CompSt where
  next : Nat := 0
  comp : Nat → Comp := fun _ => {}
  visited : List Blk := []
  scOf : Blk → Option Nat := fun _ => none

/-- Assignment of a component.  `/repo/src/passes.h:165-193`. -/
def CompSt.upd (st : CompSt) (c : Nat) (g : Comp → Comp) : CompSt :=
  { st with comp := fun d => if d = c then g (st.comp d) else st.comp d }

/-- The loop over the blocks of an outer loop, `/repo/src/passes.h:166-175`. -/
def addLoop (st : CompSt) (blocks : List Blk) : CompSt :=
  { next := st.next + 1
    comp := fun d => if d = st.next then { blocks := blocks } else st.comp d
    visited := st.visited
    scOf := fun b => if b ∈ blocks then some st.next else st.scOf b }

/-- The head of `VisitBlock`, `/repo/src/passes.h:192-194`. -/
def enterBlock (st : CompSt) (b : Blk) (sc : Nat) : CompSt :=
  let st := st.upd sc (fun c => { c with blocks := b :: c.blocks })
  { st with visited := b :: st.visited, scOf := fun x => if x = b then some sc else st.scOf x }

/-- The component of the target of an edge, `/repo/src/passes.h:210-216`. -/
def targetComp (st : CompSt) (t : Blk) : Nat × CompSt :=
  match st.scOf t with
  | some c => (c, st)
  | none => (st.next, { st with next := st.next + 1 })

/-- `/repo/src/passes.h:218-225` -/
def linkComp (st : CompSt) (sc new : Nat) (t : Blk) : CompSt :=
  if sc ≠ new then
    st.upd sc (fun c => { c with
      children := new :: c.children, targets := (new, t) :: c.targets,
      outgoing := (t, new) :: c.outgoing })
  else st

/-- The loop over the edges, `/repo/src/passes.h:196-230`. -/
def cfgEdges (visit : CompSt → Blk → Nat → Option CompSt) (b : Blk) (sc : Nat) :
    List Edge → CompSt → Option CompSt
  | [], st => some st
  | e :: es, st =>
    if e.type = .catch then cfgEdges visit b sc es st
    else if e.type = .call then cfgEdges visit b sc es st
    else if e.type = .ret then
      cfgEdges visit b sc es (st.upd sc (fun c => { c with returns := b :: c.returns }))
    else if e.interproc then cfgEdges visit b sc es st
    else
      let p := targetComp st e.trg
      let st := linkComp p.2 sc p.1 e.trg
      if e.trg ∈ st.visited then cfgEdges visit b sc es st
      else match visit st e.trg p.1 with
        | none => none
        | some st => cfgEdges visit b sc es st

/-- `VisitBlock`, `/repo/src/passes.h:189-231`, with a bound on the recursion depth. -/
def cfgVisit (targets : Blk → List Edge) : Nat → CompSt → Blk → Nat → Option CompSt
  | 0, _, _, _ => none
  | n + 1, st, b, sc => cfgEdges (cfgVisit targets n) b sc (targets b) (enterBlock st b sc)

/-- `CFGAnalysis::RunLocalAnalysis` for a function that is not assumed unsafe and has no unknown
control flow, `/repo/src/passes.h:161-185`: the number of the component `s->cfg` and all
components.  `loops` are the blocks of the outer loops as Dyninst reports them. -/
def cfgAnalysis (co : CodeObj) (f : Func) (loops : List (List Blk)) : Option (Nat × CompSt) :=
  let st := loops.foldl addLoop {}
  let p := targetComp st (co.entry f)
  (cfgVisit co.targets ((co.blocks f).length + 1) p.2 (co.entry f) p.1).map (fun st => (p.1, st))

/-! ## The order in which the heap analysis takes components -/

/-- The loop over the children, `/repo/src/heap.h:370-372`. -/
def poChildren (visit : List Nat × List Nat → Nat → Option (List Nat × List Nat)) :
    List Nat → List Nat × List Nat → Option (List Nat × List Nat)
  | [], s => some s
  | c :: cs, s => match visit s c with
    | none => none
    | some s => poChildren visit cs s

/-- `PostOrderTraverse`, `/repo/src/heap.h:367-374`, with a bound on the recursion depth.  The
state is `visited` and the stack `rpo`, top first. -/
def postOrder (children : Nat → List Nat) : Nat → List Nat × List Nat → Nat →
    Option (List Nat × List Nat)
  | 0, s, c => if c ∈ s.1 then some s else none
  | n + 1, s, c =>
    if c ∈ s.1 then some s
    else match poChildren (postOrder children n) (children c) (c :: s.1, s.2) with
      | none => none
      | some (V, rpo) => some (V, c :: rpo)

/-- The components in the order in which `Analyse` takes them off the stack,
`/repo/src/heap.h:356-365`; `n` bounds the number of components. -/
def rpoOrder (children : Nat → List Nat) (n root : Nat) : Option (List Nat) :=
  (postOrder children n ([], []) root).map Prod.snd

end Verif
