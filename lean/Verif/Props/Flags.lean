import Verif.Props.PlanPoints
import Verif.Props.SafePaths

/-!
C68: each flag that disables an optimisation does so.  C69: lowering is used only where it helps.
-/

namespace Verif

/-- What a plan inserts at a point inside a block. -/
def Plan.Moved (p : Plan) : Prop :=
  (∃ x, x ∈ p.sites ∧ x.1.kind = .insn) ∨ (∃ x, x ∈ p.checkSites ∧ x.1.kind = .insn) ∨
    ∃ L, p = .lowered L ∧ ((∃ x, x ∈ L.blockPush ∧ x.2.2 ≠ none) ∨ ∃ x, x ∈ L.pops ∧ x.2.2 ≠ none)

/-- What a plan keeps in a register. -/
def Plan.UsesRegister (p : Plan) : Prop :=
  p.kind = .regFrame ∨ ∃ L, p = .lowered L ∧ ((∃ e h, (e, .reg h) ∈ L.edgePush) ∨
    (∃ n h a, (n, .reg h, a) ∈ L.blockPush) ∨ ∃ b a, (b, .reg, a) ∈ L.pops)

theorem function_lowered {fl : InstrFlags} {skip : List Nat} {co : CodeObj}
    {an : Nat → Option (FuncSummary × List WriteInfo)} {f : BFunc} {st st' : Stats} {L : Lowered}
    (h : instrumentFunction fl skip co an f st = some (.lowered L, st')) :
    ∃ s, doLowering fl co f.func (some s) = some (some L) := by
  obtain ⟨h1, h2⟩ := C40_strategy h
  by_cases hl : fl.shadowStack = "light"
  · have := (h1 hl).2 (by simp [Plan.kind])
    cases this with
    | lowered hd =>
      cases hs : summaryOf fl an f with
      | none => rw [hs] at hd; cases hd
      | some s => rw [hs] at hd; exact ⟨s, hd⟩
  · cases h2 hl

/-- C68.  The flags that disable lowering, register frames, moved points and safe function
elision each do so, in all strategies. -/
theorem C68_flags {fl : InstrFlags} {skip : List Nat} {co : CodeObj}
    {an : Nat → Option (FuncSummary × List WriteInfo)} {f : BFunc} {st st' : Stats} {p : Plan}
    (h : instrumentFunction fl skip co an f st = some (p, st')) :
    (fl.disableLowering = true → p.kind ≠ .lowered ∧ p.kind ≠ .fastPath) ∧
    (fl.disableRegFrame = true → ¬ p.UsesRegister) ∧
    (fl.disableRegSaveOpt = true → ¬ p.Moved) ∧
    (fl.disableSfe = true → p.kind ≠ .skipped) := by
  obtain ⟨h1, h2⟩ := C40_strategy h
  refine ⟨fun hd => ⟨?_, ?_⟩, fun hd => ?_, fun hd => ?_, fun hd => ?_⟩
  · intro hk
    cases p <;> try cases hk
    obtain ⟨s, hs⟩ := function_lowered h
    unfold doLowering at hs
    simp [hd] at hs
  · intro hk
    by_cases hl : fl.shadowStack = "light"
    · have := (h1 hl).2 (by rw [hk]; simp)
      cases this <;> try cases hk
      rename_i hf _ _
      unfold checkFastPath at hf
      simp [hd] at hf
    · rw [h2 hl] at hk; cases hk
  · rintro (hk | ⟨L, rfl, hk⟩)
    · by_cases hl : fl.shadowStack = "light"
      · have := (h1 hl).2 (by rw [hk]; simp)
        cases this <;> try cases hk
        rename_i hu _ _ _ _
        rw [hd] at hu; cases hu
      · rw [h2 hl] at hk; cases hk
    · obtain ⟨s, hs⟩ := function_lowered h
      have hu : (s.shouldUseRegisterFrame && !fl.disableRegFrame) = false := by simp [hd]
      obtain ⟨p1, p2⟩ := low_pushes hs
      have p3 := low_pops hs
      rw [hu] at p1 p2 p3
      rcases hk with ⟨e, x, hk⟩ | ⟨n, x, a, hk⟩ | ⟨b, a, hk⟩
      · have := p1 _ hk
        unfold edgePushOf at this
        cases hh : s.blockEndSPHeight.lookup (co.start e.src) with
        | none => simp [hh] at this
        | some v =>
          simp only [hh, bind, Option.bind, Bool.false_eq_true, if_false] at this
          split at this <;> cases this
      · have := p2 _ hk
        unfold blockPushOf at this
        cases hh : s.blockEntrySPHeight.lookup (co.start n.1) with
        | none => simp [hh] at this
        | some v =>
          simp only [hh, bind, Option.bind, Bool.false_eq_true, if_false] at this
          split at this <;> cases this
      · have := p3 _ hk
        unfold popOf at this
        simp only [Bool.false_eq_true, if_false] at this
        split at this
        · cases this
        · split at this <;> cases this
  · rintro (⟨x, hx, hk⟩ | ⟨x, hx, hk⟩ | ⟨L, rfl, hk⟩)
    · obtain ⟨_, hl⟩ := function_light h (.inl (List.ne_nil_of_mem hx))
      obtain ⟨q, m, a, b, k1, k2, k3⟩ := (light_sites hl).1 x hx
      obtain ⟨_, k4, k5⟩ := move_spec k1
      cases m with
      | true => have := (k5 rfl).2.2.1; rw [hd] at this; cases this
      | false =>
        rw [k4 rfl] at hk
        rcases k3 with ⟨k3, _⟩ | ⟨k3, _⟩ <;> rw [hk] at k3 <;> cases k3
    · obtain ⟨_, hl⟩ := function_light h (.inr (List.ne_nil_of_mem hx))
      obtain ⟨q, m, a, b, k1, k2, k3⟩ := (light_sites hl).2 x hx
      obtain ⟨_, k4, k5⟩ := move_spec k1
      cases m with
      | true => have := (k5 rfl).2.2.1; rw [hd] at this; cases this
      | false =>
        rw [k4 rfl] at hk
        rcases k3 with ⟨k3, _⟩ | ⟨k3, _⟩ <;> rw [hk] at k3 <;> cases k3
    · obtain ⟨s, hs⟩ := function_lowered h
      obtain ⟨_, p2⟩ := low_pushes hs
      have p3 := low_pops hs
      rcases hk with ⟨⟨n, k, a⟩, hk, ha⟩ | ⟨⟨b, k, a⟩, hk, ha⟩
      · have := p2 _ hk
        unfold blockPushOf at this
        cases hh : s.blockEntrySPHeight.lookup (co.start n.1) with
        | none => simp [hh] at this
        | some v =>
          simp only [hh, hd, bind, Option.bind, if_true] at this
          split at this <;> cases this <;> exact ha rfl
      · have := p3 _ hk
        unfold popOf at this
        simp only [hd, if_true] at this
        split at this
        · cases this
        · split at this <;> cases this <;> exact ha rfl
  · intro hk
    by_cases hl : fl.shadowStack = "light"
    · have := (h1 hl).1.1 hk
      rw [hd] at this; cases this.1
    · rw [h2 hl] at hk; cases hk

/-- The optimisations which the flags disable do occur without them. -/
example : (∃ p st, instrumentFunction {} [] fastCode (fun _ => some (fastSum, [])) fastFunc {} =
      some (p, st) ∧ p.kind = .fastPath ∧ p.Moved) ∧
    (∃ p st, instrumentFunction {} [] tinyCode (fun _ => some ({ unusedRegs := ["x"] }, []))
      tinyFunc {} = some (p, st) ∧ p.UsesRegister) ∧
    (∃ p st, instrumentFunction {} [4096] tinyCode (fun _ => some ({}, [])) tinyFunc {} =
      some (p, st) ∧ p.kind = .skipped) :=
  ⟨⟨_, _, rfl, rfl, .inl ⟨_, List.mem_cons_self, rfl⟩⟩, ⟨_, _, rfl, .inl rfl⟩, ⟨_, _, rfl, rfl⟩⟩

/-- C40.  The fast path and the instrumentation of entries and exits are used only if the
function cannot use a register frame. -/
theorem C40_order {fl : InstrFlags} {skip : List Nat} {co : CodeObj}
    {an : Nat → Option (FuncSummary × List WriteInfo)} {f : BFunc} {st st' : Stats} {p : Plan}
    (h : instrumentFunction fl skip co an f st = some (p, st'))
    (hk : p.kind = .fastPath ∨ p.kind = .entryExit) {s : FuncSummary}
    (hs : (an f.base).map Prod.fst = some s) (hf : fl.disableRegFrame = false) :
    s.callees ≠ [] ∨ s.unusedRegs = [] ∨ s.hasUnknownCf = true ∨ s.pltCalls ≠ [] := by
  have key : ¬ (s.callees = [] ∧ s.unusedRegs ≠ [] ∧ s.hasUnknownCf = false ∧ s.pltCalls = []) →
      s.callees ≠ [] ∨ s.unusedRegs = [] ∨ s.hasUnknownCf = true ∨ s.pltCalls ≠ [] := by
    intro hn
    by_cases h1 : s.callees = []
    · by_cases h2 : s.unusedRegs = []
      · exact .inr (.inl h2)
      · cases h3 : s.hasUnknownCf with
        | true => exact .inr (.inr (.inl rfl))
        | false =>
          by_cases h4 : s.pltCalls = []
          · exact absurd ⟨h1, h2, h3, h4⟩ hn
          · exact .inr (.inr (.inr h4))
    · exact .inl h1
  refine key fun hc => ?_
  have hu : useRegFrame fl ((an f.base).map Prod.fst) = true :=
    (useRegFrame_iff _ _).2 ⟨hf, s, hs, hc⟩
  have hl : ∃ st1, instrumentLight fl co f ((an f.base).map Prod.fst) st1 = some (p, st') := by
    unfold instrumentFunction at h
    dsimp only at h
    split at h
    · split at h
      · cases h
      split at h
      · cases h; rcases hk with hk | hk <;> cases hk
      · exact ⟨_, h⟩
    · cases h; rcases hk with hk | hk <;> cases hk
  obtain ⟨st1, hl⟩ := hl
  unfold instrumentLight at hl
  simp only [bind, Option.bind] at hl
  split at hl
  · cases hl
  rename_i lo hlo
  cases lo with
  | some L => cases hl; rcases hk with hk | hk <;> cases hk
  | none =>
    simp only [hu, if_true] at hl
    cases hl; rcases hk with hk | hk <;> cases hk

/-! ## C69 -/

theorem safePath_walk {targets : Blk → List Edge} {unsafeB exits : List Blk} {b : Blk}
    (h : SafePath targets unsafeB exits b) : ∃ es b', Walk targets Follow b es b' ∧ b' ∈ exits ∧
      ∀ e ∈ es, e.trg ∉ unsafeB := by
  induction h with
  | exit h1 h2 => exact ⟨[], _, .nil _, h2, fun e he => by cases he⟩
  | step h1 h2 h3 h4 ih =>
    rename_i b e
    obtain ⟨es, b', w1, w2, w3⟩ := ih
    refine ⟨e :: es, b', .cons h2 h3 w1, w2, fun x hx => ?_⟩
    rcases List.mem_cons.1 hx with rfl | hx
    · cases h4 <;> assumption
    · exact w3 x hx

/-- C69.  A function is lowered only if it does not begin with an unsafe block and some path from
its entry to an exit executes neither a push nor a check. -/
theorem C69_lowering_helps {fl : InstrFlags} {co : CodeObj} {f : Func} {s : FuncSummary}
    {L : Lowered} (hwf : WellFormed co f) (hex : PlainExits co f) (ha : fl.asserts = true)
    (hind : s.hasIndirectCf = true ↔ ∃ b e, HasEdge co f b e ∧ e.type = .indirect ∧ e.sink = false)
    (hp : safePathCount co f s.unsafeBlocks = some s.safePaths)
    (h : doLowering fl co f (some s) = some (some L)) :
    co.entry f ∉ s.unsafeBlocks ∧ ∃ es b', Walk co.targets Follow (co.entry f) es b' ∧
      b' ∈ co.exitBlocks f ∧ L.trace (co.entry f) es = (visits (co.entry f) es).map .block := by
  have hlow : s.lowerInstrumentation (co.entry f) = true := by
    unfold doLowering at h
    dsimp only at h
    split at h
    · cases h
    split at h
    · cases h
    · rename_i h1; simpa using h1
  unfold FuncSummary.lowerInstrumentation at hlow
  split at hlow
  · cases hlow
  rename_i he
  split at hlow
  · cases hlow
  split at hlow
  · cases hlow
  rename_i h0
  refine ⟨by simpa using he, ?_⟩
  obtain ⟨es, b', w1, w2, w3⟩ := safePath_walk (C29_positive co f _ _ hp (Nat.pos_of_ne_zero h0))
  exact ⟨es, b', w1, w2, (C34_safe_paths_free hwf hex ha hind h w1).1 w3⟩

/-- The hypotheses hold for `lowGraph`. -/
example : WellFormed lowGraph 0 ∧ PlainExits lowGraph 0 ∧
    safePathCount lowGraph 0 (lowSum [2, 3]).unsafeBlocks = some (lowSum [2, 3]).safePaths ∧
    ∃ L, doLowering {} lowGraph 0 (some (lowSum [2, 3])) = some (some L) :=
  ⟨lowGraph_wf, by unfold PlainExits; decide, by decide, _, rfl⟩

end Verif
