import Verif.Local
import Verif.Exception
import Verif.SafePaths

/-!
# The default pass pipeline (`/repo/src/instrument.cc:968-985`, `/repo/src/pass_manager.h:386-420`)

`CFGAnalysis` only fills `FuncSummary::cfg`, which no other pass of the pipeline reads, and is
left out.
-/

namespace Verif

/-- What the three register passes at the end of the pipeline write into a summary
(`/repo/src/passes.h:454-784`).  They are modelled in `BlockLive.lean` and `RegNames.lean`; here
their results are arbitrary. -/
structure RegFacts where
  moveDownSP : Bool := false
  redZoneAccess : List Int := []
  unusedRegs : List String := []
  entryData : List (Nat × MoveInst) := []
  exitData : List (Nat × MoveInst) := []
  entryFixedData : List (Nat × MoveInst) := []

/-- `SafePathsCounting::RunLocalAnalysis`, `/repo/src/passes.h:818-825`.  The count is defined for
every function whose inner edges stay inside it (`C29_total`). -/
def countSafe (co : CodeObj) (f : Func) (s : FuncSummary) : FuncSummary :=
  { s with safePaths := (safePathCount co f s.unsafeBlocks).getD 0 }

/-- The register passes.  `/repo/src/instrument.cc:978-980`. -/
def setRegs (R : Func → RegFacts) (f : Func) (s : FuncSummary) : FuncSummary :=
  { s with
    moveDownSP := (R f).moveDownSP
    redZoneAccess := (R f).redZoneAccess
    unusedRegs := (R f).unusedRegs
    entryData := (R f).entryData
    exitData := (R f).exitData
    entryFixedData := (R f).entryFixedData }

/-- `it.second->safe = last->IsSafeFunction(it.second)`, `/repo/src/pass_manager.h:414-415`. -/
def setSafe (s : FuncSummary) : FuncSummary := { s with safe := s.isSafe }

/-- The passes before the inter-procedural one.  `/repo/src/instrument.cc:969-973`. -/
def analyseLocal (co : CodeObj) (info : StackInfo) : Option Sums :=
  (cgRun co (fun _ => {})).map fun S =>
    runLocal co.funcs (stackHeight co info) (runLocal co.funcs (largeFilter co) S)

/-- `PassManager::Run` with the passes of `/repo/src/instrument.cc:969-980`. -/
def analyse (co : CodeObj) (info : StackInfo) (R : Func → RegFacts) : Option Sums := do
  let S ← analyseLocal co info
  let S ← ipRun co.funcs S
  let (S, _) ← exRun co.funcs co.addr S
  let S := ucRun co S
  let S := runLocal co.funcs (countSafe co) S
  let S := runLocal co.funcs (setRegs R) S
  return fun f => setSafe (S f)

/-! ## What the passes leave alone -/

/-- Everything but the fields which the inter-procedural pass writes.
`/repo/src/instrument.cc:974`. -/
def ipErase (s : FuncSummary) : FuncSummary :=
  { s with childWrites := false, assumeUnsafe := false, writes := false }

/-- Everything but the field which the exception pass writes.  `/repo/src/instrument.cc:975`. -/
def exErase (s : FuncSummary) : FuncSummary := { s with funcExceptionSafe := false }

theorem ipErase_set {S : Sums} {f : Func} {s : FuncSummary} (h : ipErase s = ipErase (S f)) (g : Func) :
    ipErase (S.set f s g) = ipErase (S g) := by
  by_cases e : g = f
  · subst e; rw [Sums.set_same, h]
  · rw [Sums.set_other _ _ e]

theorem ipVisit_erase {funcs : List Func} : ∀ (n : Nat) (t t' : Trav) (f : Func),
    ipVisit funcs n t f = some t' → ∀ g, ipErase (t'.sums g) = ipErase (t.sums g) := by
  intro n
  induction n with
  | zero => intro t t' f h; cases h
  | succ n ih =>
    intro t t' f h g
    obtain ⟨t1, h1, rfl⟩ := ipVisit_cases h
    refine (ipErase_set (by rfl) g).trans ?_
    exact foldlM_inv (fun u : Trav => ∀ g, ipErase (u.sums g) = ipErase (t.sums g))
      (ipCallee (ipVisit funcs n) funcs f) (t.sums f).callees
      { t with visited := f :: t.visited } t1
      (by
        intro c u u' _ hu hstep g
        obtain ⟨u1, hu1, rfl⟩ := ipCallee_cases hstep
        refine (ipErase_set (by rfl) g).trans ?_
        rcases hu1 with ⟨_, rfl⟩ | ⟨_, _, hvis⟩
        · exact hu g
        · rw [ih u u1 c hvis g]; exact hu g)
      (fun _ => rfl) h1 g

theorem ipRun_erase {funcs : List Func} {S S' : Sums} (h : ipRun funcs S = some S') (g : Func) :
    ipErase (S' g) = ipErase (S g) := by
  unfold ipRun at h
  cases hf : funcs.foldlM (ipTop funcs) { sums := S, visited := [] } with
  | none => rw [hf] at h; cases h
  | some t =>
    rw [hf] at h
    cases h
    exact foldlM_inv (fun u : Trav => ∀ g, ipErase (u.sums g) = ipErase (S g)) (ipTop funcs) funcs _ t
      (by
        intro f u u' _ hu hstep g
        unfold ipTop at hstep
        split at hstep
        · cases hstep; exact hu g
        · rw [ipVisit_erase _ _ _ _ hstep]; exact hu g)
      (fun _ => rfl) hf g

theorem exErase_set {S : Sums} {f : Func} {s : FuncSummary} (h : exErase s = exErase (S f)) (g : Func) :
    exErase (S.set f s g) = exErase (S g) := by
  by_cases e : g = f
  · subst e; rw [Sums.set_same, h]
  · rw [Sums.set_other _ _ e]

theorem exVisit_erase {funcs : List Func} : ∀ (n : Nat) (t : Trav) (p : Trav × Bool) (f : Func),
    exVisit funcs n t f = some p → ∀ g, exErase (p.1.sums g) = exErase (t.sums g) := by
  intro n
  induction n with
  | zero => intro t p f h; cases h
  | succ n ih =>
    intro t p f h g
    simp only [exVisit] at h
    split at h
    · cases h; exact (exErase_set (S := t.sums) (by rfl) g)
    split at h
    · cases h; exact (exErase_set (S := t.sums) (by rfl) g)
    split at h
    · cases h
    rename_i q t1 ret hfold
    cases h
    refine (exErase_set (S := t1.sums) (by rfl) g).trans ?_
    exact foldlM_inv (fun u : Trav × Bool => ∀ g, exErase (u.1.sums g) = exErase (t.sums g))
      (exCallee (exVisit funcs n) funcs) _ _ _
      (by
        intro c u u' _ hu hstep g
        unfold exCallee at hstep
        split at hstep
        · cases hstep; exact hu g
        split at hstep
        · split at hstep
          · cases hstep
          · rename_i hv
            cases hstep
            rw [ih _ _ _ hv]; exact hu g
        · cases hstep)
      (fun _ => rfl) hfold g

theorem exRun_erase {funcs : List Func} {addr : Func → Nat} {S S' : Sums} {free : List Nat}
    (h : exRun funcs addr S = some (S', free)) (g : Func) : exErase (S' g) = exErase (S g) := by
  unfold exRun at h
  cases hf : funcs.foldlM (exTop funcs) { sums := S, visited := [] } with
  | none => rw [hf] at h; cases h
  | some t =>
    rw [hf] at h
    cases h
    exact foldlM_inv (fun u : Trav => ∀ g, exErase (u.sums g) = exErase (S g)) (exTop funcs) funcs _ t
      (by
        intro f u u' _ hu hstep g
        unfold exTop at hstep
        split at hstep
        · cases hstep; exact hu g
        · cases hv : exVisit funcs (funcs.length + 1) u f with
          | none => rw [hv] at hstep; cases hstep
          | some p =>
            rw [hv] at hstep
            cases hstep
            rw [exVisit_erase _ _ _ _ hv]; exact hu g)
      (fun _ => rfl) hf g

end Verif
