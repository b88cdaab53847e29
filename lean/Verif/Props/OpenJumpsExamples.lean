import Verif.Props.OpenJumps
import Verif.Props.FullModeExamples

/-!
# C97: example programs and attacks
-/

namespace Verif

/-- With lowering switched off the functions with jumps with unknown targets need no special care. -/
theorem C97_disabled {fl : InstrFlags} {skip : List Nat} {co : CodeObj} {info : StackInfo}
    {R : Func → RegFacts} {T : Sums} {bf : Func → BFunc} {plan : Func → Plan}
    (hb : Built fl skip co info R T bf plan) (hoff : fl.disableLowering = true) : OpenPlans co plan := by
  intro f hf _
  rcases hb.cases hf with ⟨_, hp⟩ | ⟨ws, an, st, st', _, hplan⟩
  · rw [hp]
    exact ⟨nofun, nofun⟩
  have h40 := (C40_strategy hplan).1 hb.light
  by_cases hk : (plan f).kind = .skipped
  · rw [hk]
    exact ⟨nofun, nofun⟩
  have hst := h40.2 hk
  cases hp : plan f with
  | skipped => exact ⟨nofun, nofun⟩
  | full a c => exact ⟨nofun, nofun⟩
  | regFrame a c => exact ⟨nofun, nofun⟩
  | entryExit a c => exact ⟨nofun, nofun⟩
  | lowered L =>
    rw [hp] at hst
    cases hst with
    | lowered h =>
      unfold doLowering at h
      split at h
      · cases h
      · rw [if_pos hoff] at h
        cases h
  | fastPath q c =>
    rw [hp] at hst
    cases hst with
    | fastPath _ _ h =>
      unfold checkFastPath at h
      rw [if_pos hoff] at h
      cases h

namespace Small
variable {p : Small} {ls : List Edge}

/-- Missing edges. -/
def landsOf (ls : List Edge) (b : Blk) : List Edge := ls.filter fun e => e.src = b

/-- The program with these edges. -/
def openCode (p : Small) (ls : List Edge) : CodeObj := opened p.code (landsOf ls)

theorem landsOk (h1 : ∀ e ∈ ls, ∃ e' ∈ p.edges, e'.src = e.src ∧ OpenJump e')
    (h2 : ∀ e ∈ ls, e.type = .indirect ∧ Flow e)
    (h3 : ∀ f ∈ p.code.funcs, ∀ e ∈ ls, e.src ∈ p.blocksOf f →
      e.trg ∈ p.blocksOf f ∧ e.trg ≠ p.code.entry f)
    (h4 : ∀ f ∈ p.code.funcs, ∀ e ∈ ls, e.src ∉ p.exitsOf f) : LandsOk p.code (landsOf ls) := by
  have hm : ∀ {b e}, e ∈ landsOf ls b → e ∈ ls ∧ e.src = b := fun h => by
    simpa [landsOf, List.mem_filter] using h
  refine ⟨fun b e he => ?_, fun b e he => (hm he).2, fun b e he => (h2 e (hm he).1).1,
    fun b e he => (h2 e (hm he).1).2, fun f hf b hb e he => h3 f hf e (hm he).1 ?_, fun f hf b hb => ?_⟩
  · obtain ⟨e', h, h', h''⟩ := h1 e (hm he).1
    exact ⟨e', mem_targets.mpr ⟨h, h'.trans (hm he).2⟩, h''⟩
  · rw [(hm he).2]; exact hb
  · cases hl : landsOf ls b with
    | nil => rfl
    | cons e l =>
      have := hm (b := b) (e := e) (by rw [hl]; simp)
      exact absurd (by rw [this.2]; exact hb) (h4 f hf e this.1)

/-- Does the walk exist, and where does it end? -/
def openEnd (p : Small) (ls : List Edge) : Blk → List Edge → Option Blk
  | b, [] => some b
  | b, e :: es => if (e ∈ p.edges ∨ e ∈ ls) ∧ e.src = b ∧ Follow e then p.openEnd ls e.trg es else none

theorem openEnd_walk {b b' : Blk} {es : List Edge} (h : p.openEnd ls b es = some b') :
    Walk (p.openCode ls).targets Follow b es b' := by
  induction es generalizing b with
  | nil => cases h; exact .nil _
  | cons e es ih =>
    rw [openEnd] at h
    split at h
    · rename_i hc
      refine .cons (mem_opened.mpr (hc.1.imp (fun h => mem_targets.mpr ⟨h, hc.2.1⟩) fun h => ?_))
        hc.2.2 (ih h)
      simp [landsOf, List.mem_filter, h, hc.2.1]
    · cases h

/-- Executions of the program with these edges. -/
def openSem (p : Small) (ls : List Edge) : ProgSem :=
  semOf (p.openCode ls) p.info p.plan (inRegOf {} p.sums) (staysOf p.bfunc)

theorem openStarts {f : Func} {t : List Ev} {b' : Blk} (es : List Edge) (hf : f ∈ p.code.funcs)
    (hw : p.openEnd ls (p.code.entry f) es = some b') (ht : t <+: p.trace f es) :
    (p.openSem ls).trace f t := by
  obtain ⟨t', ht⟩ := ht
  exact ⟨hf, t', es, b', openEnd_walk hw, ht⟩

theorem openEnds {f : Func} {t : List Ev} {b : Blk} (es : List Edge) (hf : f ∈ p.code.funcs)
    (hw : p.openEnd ls (p.code.entry f) es = some b) (hx : b ∈ p.exitsOf f)
    (hr : isNonreturningCall ((p.openCode ls).targets b) = false) (ht : t = p.trace f es) :
    (p.openSem ls).complete f t := ⟨b, hf, hx, hr, es, openEnd_walk hw, ht⟩

theorem openWrite {f : Func} {t : List Ev} {b : Blk} (hst : (p.openSem ls).trace f (t ++ [.block b]))
    (hb : b ∈ p.danger) : (p.openSem ls).danger f (t ++ [.block b]) := by
  refine .inl ⟨hst, t, b, rfl, { addr := 4096 + 16 * b, writesMemory := true, outs := [.unknown] }, ?_, ?_⟩
  · simp [info, hb]
  · exact ⟨rfl, rfl, .unknown, by simp, .inl rfl⟩

end Small

/-! ## A protected program -/

/-- `f0` writes, and continues at once or by a jump through a table. -/
def tableProg : Small where
  blocks := [[0, 1, 2, 3]]
  exits := [[2, 3]]
  edges :=
    [{ id := 0, src := 0, trg := 1, type := .condTaken },
     { id := 1, src := 0, trg := 2, type := .condNotTaken },
     { id := 2, src := 1, trg := 1, type := .indirect, sink := true },
     retEdge 3 2, retEdge 4 3]
  danger := [0]

/-- What the table of `tableProg` contains. -/
def tableLands : List Edge :=
  [{ id := 5, src := 1, trg := 2, type := .indirect }, { id := 6, src := 1, trg := 3, type := .indirect }]

theorem tableProg_ok : tableProg.Ok where
  sums := by decide +kernel
  plans := by decide +kernel
  addr := by decide +kernel
  oneCall := by decide +kernel
  entry := by decide +kernel
  closed := by decide +kernel
  ret := by decide +kernel
  exits := by decide +kernel
  handler := by decide +kernel
  nodup := by decide +kernel
  after := by decide +kernel
  resolved := by decide +kernel
  exitIn := by decide +kernel
  nodupEdges := by decide +kernel
  lone := by decide +kernel
  callOut := by decide +kernel

theorem tableProg_lands : LandsOk tableProg.code (Small.landsOf tableLands) :=
  Small.landsOk (by decide +kernel) (by decide +kernel) (by decide +kernel) (by decide +kernel)

/-- Programs without calls and jumps out of functions meet the conditions of `C45`. -/
structure Small.NoCalls (p : Small) : Prop where
  calls : ∀ f ∈ p.code.funcs, NoCallAtCheck {} p.code (p.bfunc f)
  tails : ∀ f ∈ p.code.funcs, TailsOk p.code p.sums f
  covered : ∀ f ∈ p.code.funcs, CallsCovered p.sums f
  left : ∀ f ∈ p.code.funcs, LeftOk p.skip p.code p.sums p.bfunc f

theorem Small.Ok.noCalls {p : Small} (hok : p.Ok)
    (h : ∀ e ∈ p.edges, e.type ≠ .call ∧ (e.interproc = true → e.type = .ret))
    (hc : ∀ f ∈ p.code.funcs, (p.sums f).callees = []) (hst : p.stubs = [] := by rfl)
    (h1 : p.noret = [] := by rfl) (h2 : p.other = [] := by rfl) (h3 : p.skip = [] := by rfl) :
    p.NoCalls where
  calls _ _ := noCallAtCheck fun _ _ e he _ => (h e he).1
  tails _ _ := tailsOk (fun e he _ hi _ hr => absurd ((h e he).2 hi) hr) hst
  covered := hok.built.covered (hok.noRecursion fun g hg c hm => by rw [hc g hg] at hm; cases hm)
  left := allIn h1 h2 h3

theorem tableProg_noCalls : tableProg.NoCalls :=
  tableProg_ok.noCalls (by decide +kernel) (by decide +kernel)

theorem tableProg_plans : OpenPlans tableProg.code tableProg.plan := by
  have h : ∀ f ∈ tableProg.code.funcs, (tableProg.plan f).kind = .entryExit := by decide +kernel
  intro f hf _
  rw [h f hf]
  exact ⟨nofun, nofun⟩

/-- Example for `C97_protected_partial`: the table leads to both exits, and both are checked. -/
example : Protected (tableProg.openSem tableLands) 0 ∧
    (tableProg.openSem tableLands).complete 0 [.push, .block 0, .block 1, .block 3, .check] :=
  ⟨C97_protected_partial tableProg_ok.built tableProg_lands tableProg_plans tableProg_noCalls.calls
    tableProg_noCalls.covered tableProg_noCalls.tails tableProg_noCalls.left 0,
   Small.openEnds (b := 3) [tableProg.edges[0], tableLands[1]] (by decide) (by decide) (by decide)
    (by decide) (by decide +kernel)⟩

/-- Example for `C97_exceptions_partial` and `C97_threads_partial`. -/
example (frame : Func → Reg) (g : Nat → W) :
    UProtected (semOn Flow (tableProg.openCode tableLands) tableProg.plan tableProg.info
      (inRegOf {} tableProg.sums) (staysOf tableProg.bfunc)) 0 ∧
    ∃ B : Binary, TeamProtected (semOn Flow (tableProg.openCode tableLands) tableProg.plan tableProg.info
      (inRegOf {} tableProg.sums) (staysOf tableProg.bfunc)) frame
      (B.Snippet {} (fun f => (tableProg.sums f).jit {}) tableProg.code tableProg.plan) Needs g := by
  have hc : ∀ f ∈ tableProg.code.funcs, ∀ L,
      doLowering {} tableProg.code f (some (tableProg.sums f)) = some (some L) →
        CleanupOnly tableProg.code tableProg.sums f := by
    intro f hf L h
    have h' : ∀ f ∈ tableProg.code.funcs,
        (doLowering {} tableProg.code f (some (tableProg.sums f)) matches some none) = true := by
      decide +kernel
    have := h' f hf
    rw [h] at this
    cases this
  exact ⟨C97_exceptions_partial tableProg_ok.built tableProg_lands tableProg_plans
    tableProg_noCalls.calls tableProg_noCalls.covered tableProg_noCalls.tails tableProg_noCalls.left
    tableProg_ok.handlers hc 0, _, C97_threads_partial (tableProg.binaryOk rfl frame) tableProg_ok.built
    tableProg_lands tableProg_plans tableProg_noCalls.calls tableProg_noCalls.covered
    tableProg_noCalls.tails tableProg_noCalls.left tableProg_ok.handlers hc g⟩

/-- Example for `C97_full_partial`. -/
example : Protected (semOf (tableProg.openCode tableLands) tableProg.info tableProg.fullPlan
    (fun _ => False) (staysOf tableProg.bfunc)) 0 :=
  C97_full_partial tableProg_ok.full tableProg_lands
    (Small.fullOk rfl rfl (by decide +kernel)) 0

/-! ## A lowered function -/

/-- `f0` continues with block 1 or 2; block 1 with the write of block 3 or the return of block 4, block 2
by a jump through a table. -/
def lowTable : Small where
  blocks := [[0, 1, 2, 3, 4]]
  exits := [[4]]
  edges :=
    [{ id := 0, src := 0, trg := 1, type := .condTaken },
     { id := 1, src := 0, trg := 2, type := .condNotTaken },
     { id := 2, src := 1, trg := 3, type := .condTaken },
     { id := 3, src := 1, trg := 4, type := .condNotTaken },
     { id := 4, src := 2, trg := 2, type := .indirect, sink := true },
     { id := 5, src := 3, trg := 4, type := .direct },
     retEdge 6 4]
  danger := [3]

/-- What its table contains. -/
def lowLands : List Edge :=
  [{ id := 7, src := 2, trg := 3, type := .indirect }, { id := 8, src := 2, trg := 4, type := .indirect }]

theorem lowTable_ok : lowTable.Ok where
  sums := by decide +kernel
  plans := by decide +kernel
  addr := by decide +kernel
  oneCall := by decide +kernel
  entry := by decide +kernel
  closed := by decide +kernel
  ret := by decide +kernel
  exits := by decide +kernel
  handler := by decide +kernel
  nodup := by decide +kernel
  after := by decide +kernel
  resolved := by decide +kernel
  exitIn := by decide +kernel
  nodupEdges := by decide +kernel
  lone := by decide +kernel
  callOut := by decide +kernel

theorem lowTable_lands : LandsOk lowTable.code (Small.landsOf lowLands) :=
  Small.landsOk (by decide +kernel) (by decide +kernel) (by decide +kernel) (by decide +kernel)

theorem lowTable_noCalls : lowTable.NoCalls :=
  lowTable_ok.noCalls (by decide +kernel) (by decide +kernel)

/-- The jump through the table leads to the original of block 3, before which nothing was pushed and
after which nothing is checked. -/
theorem lowTable_attack :
    PRun (lowTable.openSem lowLands) (.run [⟨0, [], 7, 7, none⟩] []) (.hijacked 666) := by
  have e1 : (lowTable.openSem lowLands).trace 0 ([] ++ [.block 0]) :=
    Small.openStarts (b' := 0) [] (by decide) (by decide) (by decide +kernel)
  have e2 : (lowTable.openSem lowLands).trace 0 ([.block 0] ++ [.block 2]) :=
    Small.openStarts (b' := 2) [lowTable.edges[1]] (by decide) (by decide) (by decide +kernel)
  have e3 : (lowTable.openSem lowLands).trace 0 ([.block 0, .block 2] ++ [.block 3]) :=
    Small.openStarts (b' := 3) [lowTable.edges[1], lowLands[0]] (by decide) (by decide) (by decide +kernel)
  have e4 : (lowTable.openSem lowLands).trace 0 ([.block 0, .block 2, .block 3] ++ [.block 4]) :=
    Small.openStarts (b' := 4) [lowTable.edges[1], lowLands[0], lowTable.edges[5]] (by decide) (by decide)
      (by decide +kernel)
  have r0 : PRun (lowTable.openSem lowLands) (.run [⟨0, [], 7, 7, none⟩] []) _ := .refl _
  have r1 := r0.step (.block (a := ⟨0, [], 7, 7, none⟩) e1)
  have r2 := r1.step (.block (a := ⟨0, [.block 0], 7, 7, none⟩) e2)
  have r3 := r2.step (.block (a := ⟨0, [.block 0, .block 2], 7, 7, none⟩) e3)
  have r4 := r3.step (.attack (a := ⟨0, [.block 0, .block 2, .block 3], 7, 7, none⟩)
    (Small.openWrite (t := [.block 0, .block 2]) e3 (by decide)) (.cons 666 .nil))
  have r5 := r4.step (.block (a := ⟨0, [.block 0, .block 2, .block 3], 7, 666, none⟩) e4)
  exact r5.step (.hijack (a := ⟨0, [.block 0, .block 2, .block 3, .block 4], 7, 666, none⟩)
    (Small.openEnds (b := 4) [lowTable.edges[1], lowLands[0], lowTable.edges[5]] (by decide) (by decide)
      (by decide) (by decide) (by decide +kernel)) (Small.mayReturn (by decide)) (by decide))

/-! ## A function with a fast path -/

/-- `f0` returns at once in block 2, or writes in block 1, after which it returns in block 3 or jumps
through a table. -/
def fastTable : Small where
  blocks := [[0, 1, 2, 3, 4]]
  exits := [[2, 3]]
  edges :=
    [{ id := 0, src := 0, trg := 2, type := .condTaken },
     { id := 1, src := 0, trg := 1, type := .condNotTaken },
     { id := 2, src := 1, trg := 3, type := .condTaken },
     { id := 3, src := 1, trg := 4, type := .condNotTaken },
     { id := 4, src := 4, trg := 4, type := .indirect, sink := true },
     retEdge 5 2, retEdge 6 3]
  danger := [1]
  lone := [2]
  height := none

/-- What its table contains. -/
def fastLands : List Edge :=
  [{ id := 7, src := 4, trg := 2, type := .indirect }, { id := 8, src := 4, trg := 3, type := .indirect }]

theorem fastTable_ok : fastTable.Ok where
  sums := by decide +kernel
  plans := by decide +kernel
  addr := by decide +kernel
  oneCall := by decide +kernel
  entry := by decide +kernel
  closed := by decide +kernel
  ret := by decide +kernel
  exits := by decide +kernel
  handler := by decide +kernel
  nodup := by decide +kernel
  after := by decide +kernel
  resolved := by decide +kernel
  exitIn := by decide +kernel
  nodupEdges := by decide +kernel
  lone := by decide +kernel
  callOut := by decide +kernel

theorem fastTable_lands : LandsOk fastTable.code (Small.landsOf fastLands) :=
  Small.landsOk (by decide +kernel) (by decide +kernel) (by decide +kernel) (by decide +kernel)

theorem fastTable_noCalls : fastTable.NoCalls :=
  fastTable_ok.noCalls (by decide +kernel) (by decide +kernel)

/-- The jump through the table leads from the slow path to the return of the fast path, which has no
check. -/
theorem fastTable_attack :
    PRun (fastTable.openSem fastLands) (.run [⟨0, [], 7, 7, none⟩] []) (.hijacked 666) := by
  have hreg : ¬ (fastTable.openSem fastLands).inReg 0 := by
    change ¬ (useRegFrame {} (some (fastTable.sums 0)) = true); decide +kernel
  have e1 : (fastTable.openSem fastLands).trace 0 ([] ++ [.block 0]) :=
    Small.openStarts (b' := 0) [] (by decide) (by decide) (by decide +kernel)
  have e2 : (fastTable.openSem fastLands).trace 0 ([.block 0] ++ [.push]) :=
    Small.openStarts (b' := 1) [fastTable.edges[1]] (by decide) (by decide) (by decide +kernel)
  have e3 : (fastTable.openSem fastLands).trace 0 ([.block 0, .push] ++ [.block 1]) :=
    Small.openStarts (b' := 1) [fastTable.edges[1]] (by decide) (by decide) (by decide +kernel)
  have e4 : (fastTable.openSem fastLands).trace 0 ([.block 0, .push, .block 1] ++ [.block 4]) :=
    Small.openStarts (b' := 4) [fastTable.edges[1], fastTable.edges[3]] (by decide) (by decide)
      (by decide +kernel)
  have e5 : (fastTable.openSem fastLands).trace 0 ([.block 0, .push, .block 1, .block 4] ++ [.block 2]) :=
    Small.openStarts (b' := 2) [fastTable.edges[1], fastTable.edges[3], fastLands[0]] (by decide) (by decide)
      (by decide +kernel)
  have r0 : PRun (fastTable.openSem fastLands) (.run [⟨0, [], 7, 7, none⟩] []) _ := .refl _
  have r1 := r0.step (.block (a := ⟨0, [], 7, 7, none⟩) e1)
  have r2 := r1.step (.push (a := ⟨0, [.block 0], 7, 7, none⟩) e2 hreg)
  have r3 := r2.step (.block (a := ⟨0, [.block 0, .push], 7, 7, none⟩) e3)
  have r4 := r3.step (.attack (a := ⟨0, [.block 0, .push, .block 1], 7, 7, none⟩)
    (Small.openWrite (t := [.block 0, .push]) e3 (by decide)) (.cons 666 .nil))
  have r5 := r4.step (.block (a := ⟨0, [.block 0, .push, .block 1], 7, 666, none⟩) e4)
  have r6 := r5.step (.block (a := ⟨0, [.block 0, .push, .block 1, .block 4], 7, 666, none⟩) e5)
  exact r6.step (.hijack (a := ⟨0, [.block 0, .push, .block 1, .block 4, .block 2], 7, 666, none⟩)
    (Small.openEnds (b := 2) [fastTable.edges[1], fastTable.edges[3], fastLands[0]] (by decide) (by decide)
      (by decide) (by decide) (by decide +kernel)) (Small.mayReturn (by decide)) (by decide))

/-! ## The negations -/

/-- A program which meets all conditions of `C45`, and whose function is instrumented in this way, is not
protected if a jump whose targets the parser did not find leads to the wrong block. -/
def OpenRefuted (k : PlanKind) : Prop :=
  ∃ co info T bf plan lands, Built {} [] co info (fun _ => {}) T bf plan ∧
    (∀ f ∈ co.funcs, NoCallAtCheck {} co (bf f)) ∧ (∀ f ∈ co.funcs, CallsCovered T f) ∧
    (∀ f ∈ co.funcs, TailsOk co T f) ∧ (∀ f ∈ co.funcs, LeftOk [] co T bf f) ∧ LandsOk co lands ∧
    (plan 0).kind = k ∧
    ¬ Protected (semOf (opened co lands) info plan (inRegOf {} T) (staysOf bf)) 0

/-- **C97, refuted for lowered functions.** `DoInstrumentationLowering` refuses functions with jumps
through tables the parser understands (`has_indirect_cf`, `/repo/src/instrument.cc:436`), but not
functions with jumps through tables it does not understand. -/
theorem C97_refuted_lowering : OpenRefuted .lowered :=
  ⟨lowTable.code, lowTable.info, lowTable.sums, lowTable.bfunc, lowTable.plan, Small.landsOf lowLands,
    lowTable_ok.built, lowTable_noCalls.calls, lowTable_noCalls.covered, lowTable_noCalls.tails,
    lowTable_noCalls.left, lowTable_lands, (by decide +kernel),
    fun h => h.unchecked _ _ lowTable_attack⟩

/-- **C97, refuted for fast paths.** Nor does `CheckFastPathFunction`
(`/repo/src/instrument.cc:185-285`). -/
theorem C97_refuted_fast : OpenRefuted .fastPath :=
  ⟨fastTable.code, fastTable.info, fastTable.sums, fastTable.bfunc, fastTable.plan,
    Small.landsOf fastLands, fastTable_ok.built, fastTable_noCalls.calls, fastTable_noCalls.covered,
    fastTable_noCalls.tails, fastTable_noCalls.left, fastTable_lands, (by decide +kernel),
    fun h => h.unchecked _ _ fastTable_attack⟩

end Verif
