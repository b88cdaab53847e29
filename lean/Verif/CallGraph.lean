import Verif.Cfg
import Verif.InterProc

/-!
# Call graph construction (`/repo/src/passes.h:39-107`)
-/

namespace Verif

/-- `set.insert(x)`; the position is immaterial.  `/repo/src/passes.h:89,100`. -/
def setInsert (l : List Nat) (x : Nat) : List Nat := if x ∈ l then l else x :: l

theorem mem_setInsert {l : List Nat} {x y : Nat} : y ∈ setInsert l x ↔ y = x ∨ y ∈ l := by
  unfold setInsert
  split
  · constructor
    · exact .inr
    · rintro (rfl | h) <;> assumption
  · simp

/-- `map[k] = v`.  `/repo/src/passes.h:76`. -/
def mapSet {β : Type} (m : List (Nat × β)) (k : Nat) (v : β) : List (Nat × β) :=
  (k, v) :: m.filter (fun p => p.1 ≠ k)

theorem mem_mapSet {β : Type} {m : List (Nat × β)} {k : Nat} {v : β} {p : Nat × β} :
    p ∈ mapSet m k v ↔ p = (k, v) ∨ (p ∈ m ∧ p.1 ≠ k) := by
  simp [mapSet]

/-- The function entered at block `b`: `/repo/src/passes.h:79-87`. -/
def calleeAt (co : CodeObj) (b : Blk) : Option Func :=
  (co.funcsAt b).find? (fun g => co.entry g == b)

/-- One edge in `UpdateCallees`, `/repo/src/passes.h:60-90`. -/
def updateEdge (co : CodeObj) (b : Blk) (s : FuncSummary) (e : Edge) : FuncSummary :=
  if e.sink && e.type == .indirect && e.interproc then s
  else if e.sink && e.type != .ret then { s with hasUnknownCf := true }
  else if e.type == .indirect then { s with hasIndirectCf := true }
  else if e.type != .call then s
  else match co.linkage (co.start e.trg) with
    | some name => { s with pltCalls := mapSet s.pltCalls (co.last b) name }
    | none => match calleeAt co e.trg with
      | some g => { s with callees := setInsert s.callees g }
      | none => s

/-- `UpdateCallees`, `/repo/src/passes.h:58-92`. -/
def updateCallees (co : CodeObj) (f : Func) (s : FuncSummary) : FuncSummary :=
  (co.blocks f).foldl (fun s b => (co.targets b).foldl (updateEdge co b) s) s

/-- One iteration of the loop over callees, `/repo/src/passes.h:99-105`. -/
def cgCallee (co : CodeObj) (visit : Trav → Func → Option Trav) (f : Func) (t : Trav) (c : Func) :
    Option Trav :=
  if c ∈ co.funcs then
    let t := { t with sums := t.sums.set c { t.sums c with
      callers := setInsert (t.sums c).callers f } }
    if c ∈ t.visited then some t else visit t c
  else none

/-- `VisitFunction`, `/repo/src/passes.h:94-106`, with a bound on the recursion depth. -/
def cgVisit (co : CodeObj) : Nat → Trav → Func → Option Trav
  | 0, _, _ => none
  | n + 1, t, f =>
    let s := updateCallees co f (t.sums f)
    s.callees.foldlM (cgCallee co (cgVisit co n) f)
      { sums := t.sums.set f s, visited := f :: t.visited }

/-- One iteration of `RunGlobalAnalysis`, `/repo/src/passes.h:49-54`. -/
def cgTop (co : CodeObj) (t : Trav) (f : Func) : Option Trav :=
  if f ∈ t.visited then some t else cgVisit co (co.funcs.length + 1) t f

/-- `CallGraphAnalysis::RunGlobalAnalysis`, `/repo/src/passes.h:45-55`. -/
def cgRun (co : CodeObj) (S : Sums) : Option Sums :=
  (co.funcs.foldlM (cgTop co) { sums := S, visited := [] }).map Trav.sums

end Verif
