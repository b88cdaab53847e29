/-!
# Abstract locations of the heap analysis (`/repo/src/heap.h:29-230`)

An `AbstractLocation` owns a chain of `points_to` objects; it is modelled by the chain.
`DCHECK` and `assert` are modelled beside the operations: `meetOk`, `assignOk`, `copyOk`
say whether they pass; the operations themselves go on as in a release build.
-/

namespace Verif

/-- `Location`, `/repo/src/heap.h:29`. -/
inductive Loc where
  | heap | stack | arg | heapOrArg | top | bottom
  deriving DecidableEq, Repr

/-- `AbstractLocation`, `/repo/src/heap.h:33-54`: `last` has a null `points_to`. -/
inductive ALoc where
  | last (t : Loc) (h : Int)
  | ptr (t : Loc) (h : Int) (to : ALoc)
  deriving DecidableEq, Repr

/-- `INT_MAX`.  `/repo/src/heap.h:35`. -/
def intMax : Int := 2147483647

namespace ALoc

/-- The field `type`.  `/repo/src/heap.h:52`. -/
def type : ALoc → Loc
  | last t _ => t
  | ptr t _ _ => t

/-- The field `stack_height`.  `/repo/src/heap.h:53`. -/
def height : ALoc → Int
  | last _ h => h
  | ptr _ h _ => h

/-- Writing the field `type` and nothing else.  `/repo/src/heap.h:420`. -/
def setType (a : ALoc) (t : Loc) : ALoc :=
  match a with
  | last _ h => last t h
  | ptr _ h to => ptr t h to

/-- `GetStackLocation`, `/repo/src/heap.h:194-199`. -/
def stackAt (h : Int) : ALoc := last .stack h

/-- `GetHeapLocation` and the other constants, `/repo/src/heap.h:201-230`. -/
def flat (t : Loc) : ALoc := last t intMax

/-- `operator=`, `/repo/src/heap.h:129-142`: one level of `points_to` is copied. -/
def assign : ALoc → ALoc
  | last t h => last t h
  | ptr t h to => ptr t h (last to.type to.height)

/-- The assertion in `operator=`.  `/repo/src/heap.h:136`. -/
def assignOk : ALoc → Bool
  | ptr _ _ (ptr ..) => false
  | _ => true

/-- The copy constructor, `/repo/src/heap.h:37-45`. -/
def copy : ALoc → ALoc
  | last t h => last t h
  | ptr t h to => ptr t h to.assign

/-- The assertion met by the copy constructor.  `/repo/src/heap.h:43,136`. -/
def copyOk : ALoc → Bool
  | last .. => true
  | ptr _ _ to => to.assignOk

/-- `pointToLocation`, `/repo/src/heap.h:91-96`. -/
def pointTo : ALoc → ALoc
  | last .. => flat .top
  | ptr _ _ to => to.copy

/-- The assertion met by `pointToLocation`.  `/repo/src/heap.h:91-96`. -/
def pointToOk : ALoc → Bool
  | last .. => true
  | ptr _ _ to => to.copyOk

/-- `operator==`, `/repo/src/heap.h:108-125`. -/
def same : ALoc → ALoc → Bool
  | last t h, last t' h' => t == t' && (t != .stack || h == h')
  | ptr t h to, ptr t' h' to' => t == t' && (t != .stack || (h == h' && same to to'))
  | last t _, ptr t' _ _ => t == t' && t != .stack
  | ptr t _ _, last t' _ => t == t' && t != .stack

/-- `setPointToLocation`, `/repo/src/heap.h:98-106`. -/
def setPointTo (a l : ALoc) : ALoc :=
  if same l (flat .top) then last a.type a.height else ptr a.type a.height l.assign

/-- The assertion met by `setPointToLocation`.  `/repo/src/heap.h:98-106`. -/
def setPointToOk (l : ALoc) : Bool := same l (flat .top) || l.assignOk

/-- The six mixed pairs, `/repo/src/heap.h:174-179`. -/
def mixed (t o : Loc) : Bool :=
  (t == .arg && o == .heap) || (t == .heap && o == .arg) ||
  (t == .heapOrArg && o == .heap) || (t == .heapOrArg && o == .arg) ||
  (t == .heap && o == .heapOrArg) || (t == .arg && o == .heapOrArg)

/-- The body of `Meet`, `/repo/src/heap.h:144-185`, where `this` is `a` with type `t` and
height `h`; `deep p` is `a` after `points_to->Meet(p)` (`a` itself if `points_to` is null). -/
def meetHead (t : Loc) (h : Int) (a : ALoc) (deep : ALoc → ALoc) (o : ALoc) : ALoc :=
  if t = .top ∨ o.type = .top then flat .top
  else if t = .bottom then o.assign
  else if o.type = .bottom then a
  else if o.type = t then
    if t = .stack then
      if h ≠ o.height then flat .top else deep o.pointTo
    else a
  else if mixed t o.type then flat .heapOrArg
  else a

/-- `Meet`, `/repo/src/heap.h:144-185`. -/
def meet : ALoc → ALoc → ALoc
  | last t h, o => meetHead t h (last t h) (fun _ => last t h) o
  | ptr t h to, o => meetHead t h (ptr t h to) (fun p => ptr t h (meet to p)) o

/-- Whether `DCHECK` and the assertions pass in `Meet`; `deep p` for the inner call.
`/repo/src/heap.h:144-185`. -/
def meetHeadOk (t : Loc) (h : Int) (deep : ALoc → Bool) (o : ALoc) : Bool :=
  if t = .top ∨ o.type = .top then true
  else if t = .bottom then o.assignOk
  else if o.type = .bottom then true
  else if o.type = t then
    if t = .stack then
      if h ≠ o.height then true else deep o
    else true
  else mixed t o.type

/-- Whether `DCHECK` and the assertions pass in `Meet`.  `other.pointToLocation()` is
evaluated only if `points_to` is not null.  `/repo/src/heap.h:144-185`. -/
def meetOk : ALoc → ALoc → Bool
  | last t h, o => meetHeadOk t h (fun _ => true) o
  | ptr t h to, o => meetHeadOk t h (fun o => o.pointToOk && meetOk to o.pointTo) o

end ALoc

/-! ## Specification: what an abstract location stands for -/

/-- A value: a pointer obtained from the allocator, an argument of the function, the address
of the stack slot at some height together with what the slot holds, or anything else. -/
inductive CVal where
  | heap | arg | slot (h : Int) (content : CVal) | other

/-- The values which an abstract location stands for. -/
inductive ALoc.Means : ALoc → CVal → Prop
  | heap {a : ALoc} : a.type = .heap → Means a .heap
  | arg {a : ALoc} : a.type = .arg → Means a .arg
  | either {a : ALoc} {c} : a.type = .heapOrArg → c = .heap ∨ c = .arg → Means a c
  | top {a : ALoc} {c} : a.type = .top → Means a c
  | slot {h c} : Means (.last .stack h) (.slot h c)
  | slotOf {h to c} : Means to c → Means (.ptr .stack h to) (.slot h c)

/-- At most one level of `points_to`: what the assertions ask for. -/
def ALoc.Shallow (a : ALoc) : Prop := a.assignOk = true

end Verif
