import Verif.Pipeline
import Verif.Props.CallGraph
import Verif.Props.InterProc
import Verif.Props.Local

/-!
# What the pipeline as a whole establishes
-/

namespace Verif

/-! ## Specification -/

/-- A call into unknown code: through a pointer, or of a library function not trusted. -/
def DangerCall (co : CodeObj) (e : Edge) : Prop :=
  e.type = .call ∧ (e.sink = true ∨ ∃ n, LibCall co e n ∧ ¬ TrustedName n)

/-- Executing the block may overwrite a return address, leaving aside direct calls. -/
def DangerBlock (co : CodeObj) (info : StackInfo) (b : Blk) : Prop :=
  (∃ i ∈ info.insns b, DangerousInsn i) ∨ ∃ e ∈ co.targets b, DangerCall co e

/-- Facts about parsed code: functions and blocks are told apart by their addresses, and a block
ends with at most one call. -/
structure CodeOk (co : CodeObj) : Prop where
  nodup : co.funcs.Nodup
  start : ∀ f ∈ co.funcs, co.start (co.entry f) = co.addr f
  addr : ∀ f ∈ co.funcs, ∀ g ∈ co.funcs, co.addr f = co.addr g → f = g
  last : ∀ f ∈ co.funcs, ∀ b ∈ co.blocks f, ∀ c ∈ co.blocks f, co.last b = co.last c → b = c
  oneCall : ∀ b, ∀ e ∈ co.targets b, ∀ e' ∈ co.targets b, e.type = .call → e'.type = .call → e = e'

/-- What the summaries say about the code. -/
structure Judged (co : CodeObj) (info : StackInfo) (T : Sums) : Prop where
  safe : ∀ f, (T f).safe = !(T f).writes
  calls : ∀ f ∈ co.funcs, CallsRecorded co f (T f)
  known : ∀ f ∈ co.funcs, ∀ g ∈ (T f).callees, g ∈ co.funcs
  danger : ∀ f ∈ co.funcs, ∀ b ∈ co.blocks f, DangerBlock co info b → (T f).writes = true
  callee : ∀ f ∈ co.funcs, NoRecursion T f → ∀ g ∈ (T f).callees, (T g).writes = true →
    (T f).writes = true
  marked : ∀ f ∈ co.funcs, (T f).blockEndSPHeight ≠ [] → ∀ b ∈ co.blocks f,
    (DangerBlock co info b ∨ ∃ e ∈ co.targets b, ∃ g, DirectCall co e g ∧ (T g).writes = true) →
    b ∈ (T f).unsafeBlocks

/-! ## Fields left alone -/

/-- Everything but the fields which the stack pass writes. -/
def shErase (s : FuncSummary) : FuncSummary :=
  { s with unsafeBlocks := [], selfUnsafeWrites := false, unknownWrites := [],
           blockEndSPHeight := [], blockEntrySPHeight := [] }

theorem foldl_same {α β : Type} (f : FuncSummary → α → FuncSummary) (π : FuncSummary → β)
    (h : ∀ s x, π (f s x) = π s) (l : List α) (s : FuncSummary) : π (l.foldl f s) = π s := by
  induction l generalizing s with
  | nil => rfl
  | cons x l ih => rw [List.foldl_cons, ih, h]

theorem shAssign_erase (b : Blk) (a : Nat) (s : FuncSummary) (l : AbsLoc) :
    shErase (shAssign b a s l) = shErase s := by
  cases l with
  | stack off => rw [shAssign]; split <;> rfl
  | unknown => rfl
  | heap => rfl
  | register => rfl

theorem shInsn_erase (b : Blk) (s : FuncSummary) (i : StackInsn) :
    shErase (shInsn b s i) = shErase s := by
  unfold shInsn
  split
  · rfl
  · split
    · exact foldl_same _ shErase (shAssign_erase b i.addr) _ _
    · rfl

theorem shBlock_erase (co : CodeObj) (info : StackInfo) (s : FuncSummary) (b : Blk) :
    shErase (shBlock co info s b) = shErase s := by
  unfold shBlock
  rw [foldl_same _ shErase (shInsn_erase b)]
  unfold shHeights
  split <;> split <;> rfl

theorem stackHeight_erase (co : CodeObj) (info : StackInfo) (f : Func) (s : FuncSummary) :
    shErase (stackHeight co info f s) = shErase s := by
  unfold stackHeight
  split
  · rfl
  · exact foldl_same _ shErase (shBlock_erase co info) _ _

theorem largeFilter_erase (co : CodeObj) (f : Func) (s : FuncSummary) :
    { largeFilter co f s with assumeUnsafe := false } = { s with assumeUnsafe := false } := by
  unfold largeFilter
  repeat' split
  all_goals rfl

theorem ucFunc_erase (co : CodeObj) (safe : List Nat) (f : Func) (s : FuncSummary) :
    { ucFunc co safe f s with unsafeBlocks := [] } = { s with unsafeBlocks := [] } := by
  unfold ucFunc
  refine foldl_same _ (fun s => { s with unsafeBlocks := [] }) (fun s x => ?_) _ _
  split <;> rfl

theorem runLocal_same {β : Type} {co : CodeObj} (pass : Func → FuncSummary → FuncSummary)
    (π : FuncSummary → β) (h : ∀ f s, π (pass f s) = π s) (S : Sums) (g : Func) :
    π (runLocal co.funcs pass S g) = π (S g) := by
  unfold runLocal
  generalize co.funcs = l
  induction l generalizing S with
  | nil => rfl
  | cons f l ih =>
    rw [List.foldl_cons, ih]
    by_cases e : g = f
    · subst e; rw [Sums.set_same, h]
    · rw [Sums.set_other _ _ e]

/-! ## The pipeline -/

/-- The intermediate results of the pipeline. -/
theorem analyse_steps {co : CodeObj} {info : StackInfo} {R : Func → RegFacts} {T : Sums}
    (h : analyse co info R = some T) : ∃ S1 S4 S5 free,
      cgRun co (fun _ => {}) = some S1 ∧
      ipRun co.funcs (runLocal co.funcs (stackHeight co info) (runLocal co.funcs (largeFilter co) S1))
        = some S4 ∧
      exRun co.funcs co.addr S4 = some (S5, free) ∧
      T = fun f => setSafe (runLocal co.funcs (setRegs R)
        (runLocal co.funcs (countSafe co) (ucRun co S5)) f) := by
  unfold analyse analyseLocal at h
  simp only [Option.bind_eq_bind, Option.bind_eq_some_iff, Option.map_eq_some_iff] at h
  obtain ⟨S3, ⟨S1, h1, rfl⟩, S4, h2, ⟨S5, free⟩, h3, h4⟩ := h
  cases h4
  exact ⟨S1, S4, S5, free, h1, h2, h3, rfl⟩

theorem safeTarget_congr {co : CodeObj} {S T : Sums} (h : ∀ g, (T g).writes = (S g).writes) (a : Nat) :
    SafeTarget co T a ↔ SafeTarget co S a := by
  unfold SafeTarget
  simp only [h]

theorem updateCallees_keeps (co : CodeObj) (f : Func) (s : FuncSummary) :
    (updateCallees co f s).callers = s.callers := by
  have h := updateCallees_callers co f s s.callers
  exact congrArg (·.callers) h

theorem cgVisit_known {co : CodeObj} : ∀ (n : Nat) (t t' : Trav) (f : Func),
    (∀ g x, x ∈ (t.sums g).callers → g ∈ co.funcs) → cgVisit co n t f = some t' →
      ∀ g x, x ∈ (t'.sums g).callers → g ∈ co.funcs := by
  intro n
  induction n with
  | zero => intro t t' f _ h; cases h
  | succ n ih =>
    intro t t' f h0 h
    rw [cgVisit] at h
    refine foldlM_inv (fun u : Trav => ∀ g x, x ∈ (u.sums g).callers → g ∈ co.funcs) _ _ _ _ ?_ ?_ h
    · intro c u u' _ hu hstep
      simp only [cgCallee] at hstep
      split at hstep
      · rename_i hc
        have hrec : ∀ g x, x ∈ ((u.sums.set c { u.sums c with
            callers := setInsert (u.sums c).callers f }) g).callers → g ∈ co.funcs := by
          intro g x hx
          by_cases e : g = c
          · subst e; exact hc
          · rw [Sums.set_other _ _ e] at hx; exact hu g x hx
        split at hstep
        · cases hstep; exact hrec
        · exact ih _ _ _ hrec hstep
      · cases hstep
    · intro g x hx
      dsimp only at hx
      by_cases e : g = f
      · subst e
        rw [Sums.set_same, updateCallees_keeps] at hx
        exact h0 _ x hx
      · rw [Sums.set_other _ _ e] at hx; exact h0 g x hx

/-- The pass fails (`summaries[callee]` is null) if a callee is not a known function. -/
theorem cgRun_known {co : CodeObj} {S : Sums} (h : cgRun co (fun _ => {}) = some S) :
    ∀ f ∈ co.funcs, ∀ g ∈ (S f).callees, g ∈ co.funcs := by
  intro f hf g hg
  have hcaller := ((C31_calls_recorded co S h f hf).2 g).mpr hg
  unfold cgRun at h
  cases hfold : co.funcs.foldlM (cgTop co) { sums := fun _ => {}, visited := [] } with
  | none => rw [hfold] at h; cases h
  | some t =>
    rw [hfold] at h
    cases h
    refine foldlM_inv (fun u : Trav => ∀ g x, x ∈ (u.sums g).callers → g ∈ co.funcs) (cgTop co)
      co.funcs _ t ?_ (fun g x hx => by cases hx) hfold g f hcaller
    intro c u u' _ hu hstep
    unfold cgTop at hstep
    split at hstep
    · cases hstep; exact hu
    · exact cgVisit_known _ _ _ _ hu hstep

theorem firstCall_of_mem {es : List Edge} {e : Edge} (he : e ∈ es) (hc : e.type = .call) :
    ∃ e', FirstCall es e' := by
  induction es with
  | nil => cases he
  | cons x es ih =>
    by_cases hx : x.type = .call
    · exact ⟨x, [], es, rfl, hx, by simp⟩
    · rcases List.mem_cons.mp he with rfl | he
      · exact absurd hc hx
      · obtain ⟨e', pre, post, h1, h2, h3⟩ := ih he
        refine ⟨e', x :: pre, post, by rw [h1]; rfl, h2, ?_⟩
        intro y hy
        rcases List.mem_cons.mp hy with rfl | hy
        · exact hx
        · exact h3 y hy

/-- Everything but the fields which the call graph pass writes. -/
def cgErase (s : FuncSummary) : FuncSummary :=
  { s with callees := [], callers := [], pltCalls := [], hasUnknownCf := false, hasIndirectCf := false }

theorem updateCallees_erase (co : CodeObj) (f : Func) (s : FuncSummary) :
    cgErase (updateCallees co f s) = cgErase s := by
  rw [updateCallees_fold]
  refine foldl_same (fun s (p : Blk × Edge) => updateEdge co p.1 s p.2) cgErase (fun s p => ?_) _ _
  rcases updateEdge_cases co p.1 s p.2 with ⟨_, h⟩ | ⟨_, _, _, h⟩ | ⟨_, _, _, h⟩ | ⟨_, _, _, h⟩ |
    ⟨_, _, _, _, h⟩ <;> rw [h] <;> rfl

theorem cgVisit_erase {co : CodeObj} : ∀ (n : Nat) (t t' : Trav) (f : Func),
    cgVisit co n t f = some t' → ∀ g, cgErase (t'.sums g) = cgErase (t.sums g) := by
  intro n
  induction n with
  | zero => intro t t' f h; cases h
  | succ n ih =>
    intro t t' f h
    rw [cgVisit] at h
    refine foldlM_inv (fun u : Trav => ∀ g, cgErase (u.sums g) = cgErase (t.sums g)) _ _ _ _ ?_ ?_ h
    · intro c u u' _ hu hstep
      simp only [cgCallee] at hstep
      split at hstep
      · have hrec : ∀ g, cgErase ((u.sums.set c { u.sums c with
            callers := setInsert (u.sums c).callers f }) g) = cgErase (t.sums g) := by
          intro g
          by_cases e : g = c
          · subst e; rw [Sums.set_same]; exact hu g
          · rw [Sums.set_other _ _ e]; exact hu g
        split at hstep
        · cases hstep; exact hrec
        · intro g; rw [ih _ _ _ hstep g]; exact hrec g
      · cases hstep
    · intro g
      dsimp only
      by_cases e : g = f
      · subst e; rw [Sums.set_same, updateCallees_erase]
      · rw [Sums.set_other _ _ e]

theorem cgRun_erase {co : CodeObj} {S S' : Sums} (h : cgRun co S = some S') (g : Func) :
    cgErase (S' g) = cgErase (S g) := by
  unfold cgRun at h
  cases hfold : co.funcs.foldlM (cgTop co) { sums := S, visited := [] } with
  | none => rw [hfold] at h; cases h
  | some t =>
    rw [hfold] at h
    cases h
    refine foldlM_inv (fun u : Trav => ∀ g, cgErase (u.sums g) = cgErase (S g)) (cgTop co)
      co.funcs _ t ?_ (fun _ => rfl) hfold g
    intro c u u' _ hu hstep
    unfold cgTop at hstep
    split at hstep
    · cases hstep; exact hu
    · intro g; rw [cgVisit_erase _ _ _ _ hstep g]; exact hu g

theorem reach_congr {S T : Sums} (h : ∀ g, (T g).callees = (S g).callees) {a b : Func}
    (hr : Reach T a b) : Reach S a b := by
  induction hr with
  | refl => exact .refl
  | step hc _ ih => exact .step (by rw [← h]; exact hc) ih

theorem noRecursion_congr {S T : Sums} (h : ∀ g, (T g).callees = (S g).callees) {f : Func}
    (hr : NoRecursion T f) : NoRecursion S f := by
  intro g c h1 h2 h3
  exact hr g c (reach_congr (fun g => (h g).symm) h1) (by rw [h]; exact h2)
    (reach_congr (fun g => (h g).symm) h3)

/-- **The pipeline judges the code correctly**, as far as `Judged` goes. -/
theorem analyse_judged {co : CodeObj} {info : StackInfo} {R : Func → RegFacts} {T : Sums}
    (hok : CodeOk co) (h : analyse co info R = some T) : Judged co info T := by
  obtain ⟨S1, S4, S5, free, h1, h4, h5, rfl⟩ := analyse_steps h
  -- fields of the result in terms of the intermediate summaries
  have tail : ∀ {β : Type} (π : FuncSummary → β), (∀ s, π (setSafe s) = π s) →
      (∀ f s, π (setRegs R f s) = π s) → (∀ f s, π (countSafe co f s) = π s) → ∀ g,
      π (setSafe (runLocal co.funcs (setRegs R) (runLocal co.funcs (countSafe co) (ucRun co S5)) g)) =
        π (ucRun co S5 g) := by
    intro β π p1 p2 p3 g
    rw [p1, runLocal_same _ π p2, runLocal_same _ π p3]
  have t1 := fun g => tail (·.writes) (fun _ => rfl) (fun _ _ => rfl) (fun _ _ => rfl) g
  have t2 := fun g => tail (·.unsafeBlocks) (fun _ => rfl) (fun _ _ => rfl) (fun _ _ => rfl) g
  have t3 := fun g => tail (·.blockEndSPHeight) (fun _ => rfl) (fun _ _ => rfl) (fun _ _ => rfl) g
  have t4 := fun g => tail (·.callees) (fun _ => rfl) (fun _ _ => rfl) (fun _ _ => rfl) g
  have t5 := fun g => tail (·.pltCalls) (fun _ => rfl) (fun _ _ => rfl) (fun _ _ => rfl) g
  have t6 := fun g => tail (·.hasUnknownCf) (fun _ => rfl) (fun _ _ => rfl) (fun _ _ => rfl) g
  have t7 := fun g => tail (·.hasIndirectCf) (fun _ => rfl) (fun _ _ => rfl) (fun _ _ => rfl) g
  have u : ∀ g, { ucRun co S5 g with unsafeBlocks := [] } = { S5 g with unsafeBlocks := [] } :=
    fun g => runLocal_same _ (fun s => { s with unsafeBlocks := [] }) (ucFunc_erase co _) S5 g
  have v : ∀ g, exErase (S5 g) = exErase (S4 g) := fun g => exRun_erase h5 g
  generalize hS3 : runLocal co.funcs (stackHeight co info) (runLocal co.funcs (largeFilter co) S1) = S3
    at h4
  generalize hS2 : runLocal co.funcs (largeFilter co) S1 = S2 at hS3
  have w : ∀ g, ipErase (S4 g) = ipErase (S3 g) := fun g => ipRun_erase h4 g
  have x : ∀ g, shErase (S3 g) = shErase (S2 g) := fun g => by
    rw [← hS3]; exact runLocal_same _ shErase (stackHeight_erase co info) S2 g
  have y : ∀ g, { S2 g with assumeUnsafe := false } = { S1 g with assumeUnsafe := false } := fun g => by
    rw [← hS2]
    exact runLocal_same _ (fun s => { s with assumeUnsafe := false }) (largeFilter_erase co) S1 g
  have u1 : ∀ g, (ucRun co S5 g).writes = (S4 g).writes := fun g => by
    have a := congrArg (·.writes) (u g)
    have b := congrArg (·.writes) (v g)
    exact a.trans b
  have u3 : ∀ g, (ucRun co S5 g).blockEndSPHeight = (S3 g).blockEndSPHeight := fun g => by
    have a := congrArg (·.blockEndSPHeight) (u g)
    have b := congrArg (·.blockEndSPHeight) (v g)
    have c := congrArg (·.blockEndSPHeight) (w g)
    exact (a.trans b).trans c
  have ub : ∀ g, (S5 g).unsafeBlocks = (S3 g).unsafeBlocks := fun g => by
    have b := congrArg (·.unsafeBlocks) (v g)
    have c := congrArg (·.unsafeBlocks) (w g)
    exact b.trans c
  have deep : ∀ {β : Type} (π : FuncSummary → β) (g : Func),
      (∀ s, π { s with unsafeBlocks := [] } = π s) → (∀ s, π (exErase s) = π s) →
      (∀ s, π (ipErase s) = π s) → (∀ s, π (shErase s) = π s) →
      (∀ s, π { s with assumeUnsafe := false } = π s) → π (ucRun co S5 g) = π (S1 g) := by
    intro β π g p1 p2 p3 p4 p5
    rw [← p1, u g, p1, ← p2, v g, p2, ← p3, w g, p3, ← p4, x g, p4, ← p5, y g, p5]
  have u4 := fun g => deep (·.callees) g (fun _ => rfl) (fun _ => rfl) (fun _ => rfl) (fun _ => rfl)
    (fun _ => rfl)
  have u5 := fun g => deep (·.pltCalls) g (fun _ => rfl) (fun _ => rfl) (fun _ => rfl) (fun _ => rfl)
    (fun _ => rfl)
  have u6 := fun g => deep (·.hasUnknownCf) g (fun _ => rfl) (fun _ => rfl) (fun _ => rfl)
    (fun _ => rfl) (fun _ => rfl)
  have u7 := fun g => deep (·.hasIndirectCf) g (fun _ => rfl) (fun _ => rfl) (fun _ => rfl)
    (fun _ => rfl) (fun _ => rfl)
  have c3 : ∀ g, (S3 g).callees = (S1 g).callees := fun g => by
    have a := congrArg (·.callees) (x g)
    have b := congrArg (·.callees) (y g)
    exact a.trans b
  have k3 : ∀ g, (S3 g).hasUnknownCf = (S1 g).hasUnknownCf := fun g => by
    have a := congrArg (·.hasUnknownCf) (x g)
    have b := congrArg (·.hasUnknownCf) (y g)
    exact a.trans b
  have p3 : ∀ g, (S3 g).pltCalls = (S1 g).pltCalls := fun g => by
    have a := congrArg (·.pltCalls) (x g)
    have b := congrArg (·.pltCalls) (y g)
    exact a.trans b
  have hcalls : ∀ f ∈ co.funcs, CallsRecorded co f (S1 f) := fun f hf =>
    (C31_calls_recorded co S1 h1 f hf).1
  have hknown := cgRun_known h1
  have e1 : ∀ g, cgErase (S1 g) = cgErase {} := fun g => cgRun_erase h1 g
  have fresh1 : ∀ g, (S1 g).writes = false ∧ (S1 g).childWrites = false ∧
      (S1 g).selfUnsafeWrites = false ∧ (S1 g).unknownWrites = [] ∧ (S1 g).blockEndSPHeight = [] :=
    fun g => ⟨congrArg (·.writes) (e1 g), congrArg (·.childWrites) (e1 g),
      congrArg (·.selfUnsafeWrites) (e1 g), congrArg (·.unknownWrites) (e1 g),
      congrArg (·.blockEndSPHeight) (e1 g)⟩
  have fresh2 : ∀ g, (S2 g).selfUnsafeWrites = false ∧ (S2 g).unknownWrites = [] ∧
      (S2 g).blockEndSPHeight = [] := fun g =>
    ⟨(congrArg (·.selfUnsafeWrites) (y g)).trans (fresh1 g).2.2.1,
     (congrArg (·.unknownWrites) (y g)).trans (fresh1 g).2.2.2.1,
     (congrArg (·.blockEndSPHeight) (y g)).trans (fresh1 g).2.2.2.2⟩
  have fresh3 : Fresh S3 := fun g =>
    ⟨((congrArg (·.writes) (x g)).trans (congrArg (·.writes) (y g))).trans (fresh1 g).1,
     ((congrArg (·.childWrites) (x g)).trans (congrArg (·.childWrites) (y g))).trans (fresh1 g).2.1⟩
  have at3 : ∀ f ∈ co.funcs, S3 f = stackHeight co info f (S2 f) := fun f hf => by
    rw [← hS3]; exact runLocal_apply _ hok.nodup _ _ _ hf
  -- an untrusted library call is recorded under its own name
  have hlib : ∀ f ∈ co.funcs, ∀ b ∈ co.blocks f, ∀ e ∈ co.targets b, ∀ n, LibCall co e n →
      (co.last b, n) ∈ (S1 f).pltCalls := by
    intro f hf b hb e he n hl
    obtain ⟨n', hn'⟩ := (hcalls f hf).plt_complete b e n ⟨hb, he⟩ hl
    obtain ⟨b', e', ⟨hb', he'⟩, hlast, hl'⟩ := (hcalls f hf).plt_sound _ _ hn'
    have hbb := hok.last f hf b hb b' hb' hlast
    subst hbb
    have hee := hok.oneCall b e he e' he' hl.1 hl'.1
    subst hee
    have : n = n' := Option.some.inj (hl.2.2.symm.trans hl'.2.2)
    subst this
    exact hn'
  have writes4 : ∀ f ∈ co.funcs, LocalReason (S3 f) → (S4 f).writes = true := by
    intro f hf hl
    have := localReason_unsafe _ _ _ h4 f hf hl
    simpa [FuncSummary.isSafe] using this
  refine ⟨fun f => rfl, ?_, ?_, ?_, ?_, ?_⟩
  · intro f hf
    have hc := hcalls f hf
    refine ⟨?_, ?_, ?_, ?_, ?_⟩
    · rw [t6, u6]; exact hc.unknown
    · rw [t7, u7]; exact hc.indirect
    · intro g; rw [t4, u4]; exact hc.callees g
    · intro a n; rw [t5, u5]; exact hc.plt_sound a n
    · intro b e n; rw [t5, u5]; exact hc.plt_complete b e n
  · intro f hf g hg
    rw [t4, u4] at hg
    exact hknown f hf g hg
  · intro f hf b hb hd
    rw [t1, u1]
    refine writes4 f hf ?_
    rcases hd with ⟨i, hi, hdi⟩ | ⟨e, he, hty, hsink | ⟨n, hl, hn⟩⟩
    · rw [at3 f hf]
      cases ha : (S2 f).assumeUnsafe with
      | true => exact .inr (.inl (by rw [stackHeight, if_pos ha]; exact ha))
      | false =>
        have h51 := C51_function co info f (S2 f) ha (fresh2 f).1 (fresh2 f).2.1
        cases h1' : (stackHeight co info f (S2 f)).selfUnsafeWrites with
        | true => exact .inl h1'
        | false =>
          by_cases h2' : (stackHeight co info f (S2 f)).unknownWrites = []
          · exact absurd hdi (h51.mp ⟨h1', h2'⟩ b hb i hi)
          · exact .inr (.inr (.inr (.inl h2')))
    · refine .inr (.inr (.inl ?_))
      rw [k3]
      exact (hcalls f hf).unknown.mpr ⟨b, e, ⟨hb, he⟩, hsink, by simp [hty], by simp [hty]⟩
    · refine .inr (.inr (.inr (.inr ⟨co.last b, n, ?_, hn⟩)))
      rw [p3]
      exact hlib f hf b hb e he n hl
  · intro f hf hnr g hg hw
    rw [t1, u1] at hw ⊢
    rw [t4, u4] at hg
    have hcg : ∀ g, (setSafe (runLocal co.funcs (setRegs R)
        (runLocal co.funcs (countSafe co) (ucRun co S5)) g)).callees = (S3 g).callees := fun g => by
      rw [t4, u4, c3]
    have hnr3 : NoRecursion S3 f := noRecursion_congr hcg hnr
    cases hf4 : (S4 f).writes with
    | true => rfl
    | false =>
      have hno := C18_safe_reaches_no_reason_partial _ _ _ h4 f hf hnr3 (by
        unfold FuncSummary.isSafe; rw [hf4]; rfl)
      obtain ⟨k, hr, hl⟩ := C19_unsafe_has_reason _ _ _ fresh3 h4 g (by
        unfold FuncSummary.isSafe; rw [hw]; rfl)
      exact absurd hl (hno k (.step (by rw [c3]; exact hg) hr))
  · intro f hf hne b hb hd
    rw [t3, u3] at hne
    rw [t2, C30_unsafe_call_blocks co S5 hok.nodup f hf b]
    have w5 : ∀ g, (S5 g).writes = (S4 g).writes := fun g => congrArg (·.writes) (v g)
    have viaCall : ∀ e ∈ co.targets b, e.type = .call →
        (e.sink = true ∨ ¬ SafeTarget co S5 (co.start e.trg)) →
        b ∈ (S5 f).unsafeBlocks ∨ (b ∈ co.blocks f ∧ ∃ e, FirstCall (co.targets b) e ∧
          (e.sink = true ∨ ¬ SafeTarget co S5 (co.start e.trg))) := by
      intro e he hty hbad
      obtain ⟨e', hfc⟩ := firstCall_of_mem he hty
      have hmem : e' ∈ co.targets b := by
        obtain ⟨pre, post, h1, _, _⟩ := hfc
        rw [h1]; simp
      have : e = e' := hok.oneCall b e he e' hmem hty hfc.choose_spec.choose_spec.2.1
      subst this
      exact .inr ⟨hb, e, hfc, hbad⟩
    rcases hd with (⟨i, hi, hdi⟩ | ⟨e, he, hty, hsink | ⟨n, hl, hn⟩⟩) | ⟨e, he, g, hdc, hw⟩
    · left
      rw [ub, at3 f hf]
      have ha : (S2 f).assumeUnsafe = false := by
        cases ha : (S2 f).assumeUnsafe with
        | false => rfl
        | true =>
          rw [at3 f hf, stackHeight, if_pos ha] at hne
          exact absurd (fresh2 f).2.2 hne
      exact (C51_unsafe_blocks co info f (S2 f) ha b).mpr (.inr ⟨hb, i, hi, hdi⟩)
    · exact viaCall e he hty (.inl hsink)
    · refine viaCall e he hty (.inr ?_)
      rintro ⟨g, _, _, _, htr⟩
      exact hn (htr n hl.2.2)
    · refine viaCall e he hdc.1 (.inr ?_)
      rintro ⟨g', hg', haddr, hw', _⟩
      have hgf : g ∈ co.funcs := hknown f hf g (((hcalls f hf).callees g).mpr ⟨b, e, ⟨hb, he⟩, hdc⟩)
      have hen : co.entry g = e.trg := by
        obtain ⟨_, _, _, h, _⟩ := hdc.2.2.2
        exact h
      have : g' = g := hok.addr g' hg' g hgf (by rw [haddr, ← hen, hok.start g hgf])
      subst this
      rw [t1, u1, ← w5, hw'] at hw
      cases hw

end Verif
