import Verif.Props.PlanMachineExamples
import Verif.Props.MoveOrder
import Verif.Props.Exception

/-!
# C81: the tool gets through every program
-/

namespace Verif

/-! ## Specification -/

/-- Every direct call is of a function of the code object. -/
def CallsInside (co : CodeObj) : Prop :=
  ∀ f ∈ co.funcs, ∀ b e g, HasEdge co f b e → DirectCall co e g → g ∈ co.funcs

/-- Dyninst knows the stack height at the beginning of a block if it knows it at the end of a
block before it. -/
def HeightsFlow (co : CodeObj) (info : StackInfo) : Prop :=
  ∀ f ∈ co.funcs, ∀ b ∈ co.blocks f, ∀ e ∈ co.targets b, Follow e →
    (info.heightEnd b).isSome = true → (info.heightStart e.trg).isSome = true

/-- The addresses found by the scans of the blocks are those of instructions. -/
def MovesInside (R : Func → RegFacts) (co : CodeObj) (bf : Func → BFunc) : Prop :=
  ∀ f ∈ co.funcs, ∀ b m, (R f).entryData.lookup ((bf f).start b) = some m ∨
    (R f).exitData.lookup ((bf f).start b) = some m → (bf f).isInsn b m.newAddr = true

/-! ## The exception pass -/

theorem exErase_facts {a b : FuncSummary} (h : exErase a = exErase b) :
    a.callees = b.callees ∧ a.pltCalls = b.pltCalls ∧ a.hasUnknownCf = b.hasUnknownCf := by
  have h1 := congrArg FuncSummary.callees h
  have h2 := congrArg FuncSummary.pltCalls h
  have h3 := congrArg FuncSummary.hasUnknownCf h
  exact ⟨h1, h2, h3⟩

theorem exVisit_mono {funcs : List Func} : ∀ (n : Nat) (t : Trav) (p : Trav × Bool) (f : Func),
    exVisit funcs n t f = some p → ∀ g, g = f ∨ g ∈ t.visited → g ∈ p.1.visited := by
  intro n
  induction n with
  | zero => intro t p f h; cases h
  | succ n ih =>
    intro t p f h g hg
    have hg : g ∈ f :: t.visited := List.mem_cons.mpr hg
    simp only [exVisit] at h
    split at h
    · cases h; exact hg
    split at h
    · cases h; exact hg
    split at h
    · cases h
    rename_i q t1 ret hfold
    cases h
    exact foldlM_inv (fun u : Trav × Bool => g ∈ u.1.visited)
      (exCallee (exVisit funcs n) funcs) _ _ (t1, ret)
      (by
        intro c u u' _ hu hstep
        unfold exCallee at hstep
        split at hstep
        · cases hstep; exact hu
        split at hstep
        · split at hstep
          · cases hstep
          · rename_i hv
            cases hstep
            exact ih _ _ _ hv g (.inr hu)
        · cases hstep) hg hfold

theorem exVisit_total {funcs : List Func} {S : Sums} (hc : Closed S funcs) :
    ∀ (n : Nat) (t : Trav) (f : Func), (∀ g, exErase (t.sums g) = exErase (S g)) → f ∈ funcs →
      f ∉ t.visited → unvisited funcs t.visited < n + 1 → ∃ p, exVisit funcs (n + 1) t f = some p := by
  intro n
  induction n with
  | zero =>
    intro t f _ hf hn hlt
    have := unvisited_cons funcs t.visited f hf hn
    omega
  | succ n ih =>
    intro t f hs hf hn hlt
    have hlt' := unvisited_cons funcs t.visited f hf hn
    rw [exVisit]
    dsimp only
    split
    · exact ⟨_, rfl⟩
    split
    · exact ⟨_, rfl⟩
    obtain ⟨t1, h1, _⟩ := foldlM_total
      (fun u : Trav × Bool => (∀ g, exErase (u.1.sums g) = exErase (S g)) ∧
        ∀ g ∈ f :: t.visited, g ∈ u.1.visited)
      (exCallee (exVisit funcs (n + 1)) funcs) (t.sums f).callees
      ({ t with visited := f :: t.visited }, true)
      (by
        rintro c u hcm ⟨hu, hv⟩
        have hcf : c ∈ funcs := hc f hf c (by
          rw [← (exErase_facts (hs f)).1]; exact hcm)
        unfold exCallee
        by_cases hcv : c ∈ u.1.visited
        · rw [if_pos hcv]; exact ⟨_, rfl, hu, hv⟩
        · rw [if_neg hcv, if_pos hcf]
          have hm := unvisited_mono funcs _ _ hv
          obtain ⟨p, hp⟩ := ih u.1 c hu hcf hcv (by omega)
          rw [hp]
          exact ⟨_, rfl, fun g => (exVisit_erase _ _ _ _ hp g).trans (hu g),
            fun g hg => exVisit_mono _ _ _ _ hp g (.inr (hv g hg))⟩)
      ⟨hs, fun _ h => h⟩
    rw [h1]
    exact ⟨_, rfl⟩

/-- The pass terminates without dereferencing a null summary, whatever the call graph. -/
theorem exRun_total (funcs : List Func) (addr : Func → Nat) (S : Sums) (hc : Closed S funcs) :
    ∃ r, exRun funcs addr S = some r := by
  obtain ⟨t, h, _⟩ := foldlM_total (fun t : Trav => ∀ g, exErase (t.sums g) = exErase (S g))
    (exTop funcs) funcs { sums := S, visited := [] }
    (by
      intro f t hf hs
      unfold exTop
      by_cases hv : f ∈ t.visited
      · rw [if_pos hv]; exact ⟨t, rfl, hs⟩
      · rw [if_neg hv]
        have := unvisited_le funcs t.visited
        obtain ⟨p, hp⟩ := exVisit_total hc funcs.length t f hs hf hv (by omega)
        rw [hp]
        exact ⟨_, rfl, fun g => (exVisit_erase _ _ _ _ hp g).trans (hs g)⟩)
    (fun _ => rfl)
  exact ⟨_, by rw [exRun, h]; rfl⟩

/-- The pass fails if a function it looks into calls one without a summary. -/
theorem exRun_known {funcs : List Func} {addr : Func → Nat} {S : Sums} {r : Sums × List Nat}
    (h : exRun funcs addr S = some r) {f : Func} (hf : f ∈ funcs) (hq : ¬ MayThrow (S f)) :
    ∀ c ∈ (S f).callees, c ∈ funcs := by
  -- visited functions are known, and what they call is known once their visit is over
  have visit : ∀ (n : Nat) (t : Trav) (p : Trav × Bool) (f : Func),
      (∀ g, exErase (t.sums g) = exErase (S g)) → (∀ g ∈ t.visited, g ∈ funcs) → f ∈ funcs →
      exVisit funcs n t f = some p → (∀ g ∈ p.1.visited, g ∈ funcs ∧
        (g ∈ t.visited ∨ (¬ MayThrow (S g) → ∀ c ∈ (S g).callees, c ∈ funcs))) := by
    intro n
    induction n with
    | zero => intro t p f _ _ _ h; cases h
    | succ n ih =>
      intro t p f hs hv hf h g hg
      have one : ∀ {P : Prop}, MayThrow (t.sums f) → g ∈ f :: t.visited → g ∈ funcs ∧
          (g ∈ t.visited ∨ (¬ MayThrow (S g) → P)) := by
        intro P hm hg
        rcases List.mem_cons.mp hg with rfl | hg
        · refine ⟨hf, .inr fun hn => absurd ?_ hn⟩
          unfold MayThrow at hm ⊢
          rw [← (exErase_facts (hs g)).2.1, ← (exErase_facts (hs g)).2.2]
          exact hm
        · exact ⟨hv g hg, .inl hg⟩
      simp only [exVisit] at h
      split at h
      · rename_i hp
        cases h
        exact one (.inl (by intro e; rw [e] at hp; cases hp)) hg
      split at h
      · rename_i hu
        cases h
        exact one (.inr hu) hg
      split at h
      · cases h
      rename_i q t1 ret hfold
      cases h
      have key := foldlM_prefix
        (fun done (u : Trav × Bool) => (∀ g, exErase (u.1.sums g) = exErase (S g)) ∧
          (∀ c ∈ done, c ∈ funcs) ∧ ∀ g ∈ u.1.visited, g ∈ funcs ∧ (g ∈ f :: t.visited ∨
            (¬ MayThrow (S g) → ∀ c ∈ (S g).callees, c ∈ funcs)))
        (exCallee (exVisit funcs n) funcs) _ [] _ _
        (by
          rintro done c u u' _ ⟨k1, k2, k3⟩ hstep
          unfold exCallee at hstep
          have more : c ∈ funcs → ∀ x ∈ done ++ [c], x ∈ funcs := by
            intro hc x hx
            rcases List.mem_append.mp hx with hx | hx
            · exact k2 x hx
            · rw [List.mem_singleton.mp hx]; exact hc
          split at hstep
          · rename_i hcv
            cases hstep
            exact ⟨k1, more (k3 c hcv).1, k3⟩
          split at hstep
          · rename_i hcf
            split at hstep
            · cases hstep
            · rename_i hvis
              cases hstep
              refine ⟨fun g => (exVisit_erase _ _ _ _ hvis g).trans (k1 g), more hcf, fun g hg => ?_⟩
              obtain ⟨m1, m2⟩ := ih _ _ _ k1 (fun g hg => (k3 g hg).1) hcf hvis g hg
              rcases m2 with m2 | m2
              · exact k3 g m2
              · exact ⟨m1, .inr m2⟩
          · cases hstep)
        ⟨hs, nofun, fun g hg => by
          rcases List.mem_cons.mp hg with rfl | hg
          · exact ⟨hf, .inl (by simp)⟩
          · exact ⟨hv g hg, .inl (by simp [hg])⟩⟩ hfold
      obtain ⟨_, k2, k3⟩ := key
      obtain ⟨m1, m2⟩ := k3 g hg
      refine ⟨m1, ?_⟩
      rcases m2 with m2 | m2
      · rcases List.mem_cons.mp m2 with rfl | m2
        · refine .inr fun _ c hc => k2 c ?_
          rw [List.nil_append, (exErase_facts (hs g)).1]
          exact hc
        · exact .inl m2
      · exact .inr m2
  unfold exRun at h
  cases hfold : funcs.foldlM (exTop funcs) { sums := S, visited := [] } with
  | none => rw [hfold] at h; cases h
  | some t =>
    have key := foldlM_prefix
      (fun done (u : Trav) => (∀ g, exErase (u.sums g) = exErase (S g)) ∧
        (∀ g ∈ u.visited, g ∈ funcs ∧ (¬ MayThrow (S g) → ∀ c ∈ (S g).callees, c ∈ funcs)) ∧
        ∀ g ∈ done, g ∈ u.visited)
      (exTop funcs) funcs [] _ t
      (by
        rintro done f u u' hfm ⟨k1, k2, k3⟩ hstep
        unfold exTop at hstep
        split at hstep
        · rename_i hfv
          cases hstep
          refine ⟨k1, k2, fun g hg => ?_⟩
          rcases List.mem_append.mp hg with hg | hg
          · exact k3 g hg
          · rw [List.mem_singleton.mp hg]; exact hfv
        · cases hv : exVisit funcs (funcs.length + 1) u f with
          | none => rw [hv] at hstep; cases hstep
          | some p =>
            rw [hv] at hstep
            cases hstep
            refine ⟨fun g => (exVisit_erase _ _ _ _ hv g).trans (k1 g), fun g hg => ?_, fun g hg => ?_⟩
            · obtain ⟨m1, m2⟩ := visit _ _ _ _ k1 (fun g hg => (k2 g hg).1) hfm hv g hg
              rcases m2 with m2 | m2
              · exact k2 g m2
              · exact ⟨m1, m2⟩
            · rcases List.mem_append.mp hg with hg | hg
              · exact exVisit_mono _ _ _ _ hv g (.inr (k3 g hg))
              · exact exVisit_mono _ _ _ _ hv g (.inl (List.mem_singleton.mp hg)))
      ⟨fun _ => rfl, (by intro g hg; cases hg), (by intro g hg; cases hg)⟩ hfold
    exact (key.2.1 f (key.2.2 f hf)).2 hq

/-! ## The analysis -/

theorem local_callees {co : CodeObj} {info : StackInfo} (S : Sums) (f : Func) :
    (runLocal co.funcs (stackHeight co info) (runLocal co.funcs (largeFilter co) S) f).callees =
      (S f).callees := by
  have a := runLocal_same (co := co) _ shErase (stackHeight_erase co info)
    (runLocal co.funcs (largeFilter co) S) f
  have b := runLocal_same (co := co) _ (fun s => { s with assumeUnsafe := false })
    (largeFilter_erase co) S f
  have a := congrArg FuncSummary.callees a
  have b := congrArg FuncSummary.callees b
  exact Eq.trans a b

/-- C81.  The analysis succeeds exactly on the programs whose direct calls stay inside: on others
it dereferences a null summary. -/
theorem C81_analysis (co : CodeObj) (info : StackInfo) (R : Func → RegFacts) :
    (∃ T, analyse co info R = some T) ↔ CallsInside co := by
  constructor
  · rintro ⟨T, h⟩ f hf b e g hbe hd
    obtain ⟨S1, S4, S5, free, h1, h4, h5, rfl⟩ := analyse_steps h
    have hin : g ∈ (S1 f).callees := (C31_calls_recorded co S1 h1 f hf).1.callees g |>.mpr ⟨b, e, hbe, hd⟩
    exact cgRun_known h1 f hf g hin
  · intro hc
    obtain ⟨S1, h1⟩ := cgRun_total co hc
    have hcl : Closed (runLocal co.funcs (stackHeight co info) (runLocal co.funcs (largeFilter co) S1))
        co.funcs := by
      intro f hf c hcm
      rw [local_callees] at hcm
      obtain ⟨b, e, hbe, hd⟩ := ((C31_calls_recorded co S1 h1 f hf).1.callees c).mp hcm
      exact hc f hf b e c hbe hd
    obtain ⟨S4, h4⟩ := ipRun_total co.funcs _ hcl
    have hcl4 : Closed S4 co.funcs := by
      intro f hf c hcm
      have e := congrArg FuncSummary.callees (ipRun_erase h4 f)
      exact hcl f hf c (e ▸ hcm)
    obtain ⟨⟨S5, free⟩, h5⟩ := exRun_total co.funcs co.addr S4 hcl4
    refine Option.isSome_iff_exists.mp ?_
    unfold analyse analyseLocal
    rw [h1]
    simp only [Option.map_some, Option.bind_eq_bind, Option.bind_some]
    rw [h4]
    simp only [Option.bind_some]
    rw [h5]
    rfl

/-! ## The instrumentation -/

theorem moveInstrumentation_total (fl : InstrFlags) (f : BFunc) (s : Option FuncSummary) (p : Pt) (st : Stats)
    (hm : ∀ s', s = some s' → ∀ b m, s'.entryData.lookup (f.start b) = some m ∨
      s'.exitData.lookup (f.start b) = some m → f.isInsn b m.newAddr = true) :
    ∃ r, moveInstrumentation fl f s p st = some r := by
  unfold moveInstrumentation
  split
  · exact ⟨_, rfl⟩
  cases s with
  | none => exact ⟨_, rfl⟩
  | some s =>
    have hm := hm s rfl
    dsimp only
    split
    · split
      · split
        · exact ⟨_, rfl⟩
        · split
          · exact ⟨_, rfl⟩
          · rename_i h
            rw [if_pos (hm _ _ (.inl h))]
            exact ⟨_, rfl⟩
      · exact ⟨_, rfl⟩
    · split
      · exact ⟨_, rfl⟩
      · rename_i h
        rw [if_pos (hm _ _ (.inl h))]
        exact ⟨_, rfl⟩
    · split
      · exact ⟨_, rfl⟩
      · rename_i h
        rw [if_pos (hm _ _ (.inr h))]
        exact ⟨_, rfl⟩
    · split
      · exact ⟨_, rfl⟩
      · rename_i h
        rw [if_pos (hm _ _ (.inr h))]
        exact ⟨_, rfl⟩
    · exact ⟨_, rfl⟩

theorem planPushes_total (fl : InstrFlags) (f : BFunc) (s : Option FuncSummary)
    (hm : ∀ s', s = some s' → ∀ b m, s'.entryData.lookup (f.start b) = some m ∨
      s'.exitData.lookup (f.start b) = some m → f.isInsn b m.newAddr = true) :
    ∀ (ps : List Pt) (st : Stats), ∃ l st', planPushes fl f s ps st = some (l, st') ∧ l.length = ps.length := by
  intro ps
  induction ps with
  | nil => intro st; exact ⟨_, _, rfl, rfl⟩
  | cons p ps ih =>
    intro st
    obtain ⟨⟨m, p', st1⟩, h1⟩ := moveInstrumentation_total fl f s p st hm
    obtain ⟨l, st2, h2, h3⟩ := ih st1
    exact ⟨_, _, by simp only [planPushes, h1, h2, Option.bind_eq_bind, Option.bind_some]; rfl,
      by simp [h3]⟩

theorem planChecks_total (fl : InstrFlags) (f : BFunc) (s : Option FuncSummary)
    (hm : ∀ s', s = some s' → ∀ b m, s'.entryData.lookup (f.start b) = some m ∨
      s'.exitData.lookup (f.start b) = some m → f.isInsn b m.newAddr = true) :
    ∀ (ps : List Pt) (st : Stats), ∃ r, planChecks fl f s ps st = some r := by
  intro ps
  induction ps with
  | nil => intro st; exact ⟨_, rfl⟩
  | cons p ps ih =>
    intro st
    obtain ⟨⟨m, p', st1⟩, h1⟩ := moveInstrumentation_total fl f s p st hm
    obtain ⟨⟨l, st2⟩, h2⟩ := ih st1
    exact ⟨_, by simp only [planChecks, h1, h2, Option.bind_eq_bind, Option.bind_some]; rfl⟩

theorem instrumentLight_total {fl : InstrFlags} {co : CodeObj} {f : BFunc} {s : Option FuncSummary}
    (hl : ∃ r, doLowering fl co f.func s = some r)
    (hm : ∀ s', s = some s' → ∀ b m, s'.entryData.lookup (f.start b) = some m ∨
      s'.exitData.lookup (f.start b) = some m → f.isInsn b m.newAddr = true) (st : Stats) :
    ∃ r, instrumentLight fl co f s st = some r := by
  obtain ⟨r, hl⟩ := hl
  unfold instrumentLight
  rw [hl]
  cases r with
  | some L => exact ⟨_, rfl⟩
  | none =>
    simp only [Option.bind_eq_bind, Option.bind_some]
    split
    · exact ⟨_, rfl⟩
    · split
      · rename_i b xs _ _
        obtain ⟨l, st1, h1, h2⟩ := planPushes_total fl f _ hm [⟨.blockEntry, b, 0⟩]
          { st with loweredFns := st.loweredFns ++ [f.name] }
        obtain ⟨⟨cs, st2⟩, h3⟩ := planChecks_total fl f _ hm (xs.map fun b => ⟨.blockExit, b, 0⟩) st1
        rw [h1, Option.bind_some, h3, Option.bind_some]
        match l, h2 with
        | [p], _ => exact ⟨_, rfl⟩
      · obtain ⟨l, st1, h1, h2⟩ := planPushes_total fl f _ hm (f.entryPoints.map fun b => ⟨.entry, b, 0⟩) st
        obtain ⟨⟨cs, st2⟩, h3⟩ := planChecks_total fl f _ hm
          ((insertExits co f).map fun b => ⟨.exit, b, 0⟩) st1
        rw [h1, Option.bind_some, h3, Option.bind_some]
        exact ⟨_, rfl⟩

/-- C81.  An analysed program is instrumented without a failed assertion or a null point: every
function gets a plan, whatever the skip list, the counters and the flags, if no write has two
types. -/
theorem C81_instrument_partial {fl : InstrFlags} {co : CodeObj} {info : StackInfo} {R : Func → RegFacts}
    {T : Sums} {bf : Func → BFunc} (hok : CodeOk co) (ha : analyse co info R = some T)
    (hh : HeightsFlow co info) (hmv : MovesInside R co bf) {f : Func} (hf : f ∈ co.funcs)
    (hwf : WellFormed co f) (hbf : (bf f).func = f)
    (hinj : ∀ b, b ∈ co.blocks f → ∀ c, c ∈ co.blocks f → co.start b = co.start c → b = c)
    {ws : List WriteInfo} (hws : ∀ w ∈ ws, w.types ≤ 1)
    {an : Nat → Option (FuncSummary × List WriteInfo)} (han : an (bf f).base = some (T f, ws))
    (skip : List Nat) (st : Stats) :
    ∃ p st', instrumentFunction fl skip co an (bf f) st = some (p, st') := by
  have key : ∀ st, ∃ r, instrumentLight fl co (bf f) (some (T f)) st = some r := by
    intro st
    refine instrumentLight_total ?_ ?_ st
    · rw [hbf]
      refine C33_lowering_total _ hwf ?_
      rintro s' e b hb e' he' hfo hend
      cases e
      rcases analyse_heights_all hok ha hf hinj with ⟨e1, _⟩ | k
      · rw [e1] at hend; cases hend
      · rw [(k b hb).1] at hend
        rw [(k _ (hwf.closed b hb e' he' hfo)).2]
        have := hh f hf b hb e' he' hfo (by simpa using hend)
        obtain ⟨v, hv⟩ := Option.isSome_iff_exists.mp this
        exact ⟨_, by rw [hv]; rfl⟩
    · rintro s' e b m hm
      cases e
      obtain ⟨r1, _, r3, _⟩ := analyse_regs hok ha hf
      rw [r1, r3] at hm
      exact hmv f hf b m hm
  unfold instrumentFunction
  split
  · simp only [han, Option.map_some]
    have hc : ∀ st, ∃ st', countWrites fl.asserts ws st = some st' := by
      intro st
      cases hc : countWrites fl.asserts ws st with
      | some st' => exact ⟨_, rfl⟩
      | none =>
        cases hb : fl.asserts with
        | true =>
          rw [hb] at hc
          obtain ⟨w, hw, h2⟩ := (C43_stops ws st).mp hc
          have := hws w hw
          omega
        | false =>
          rw [hb] at hc
          exfalso
          clear han hws hb
          induction ws generalizing st with
          | nil => cases hc
          | cons w ws ih =>
            simp only [countWrites, Bool.false_and, Bool.false_eq_true, if_false] at hc
            exact ih _ hc
    obtain ⟨st', e⟩ := hc (countCalls (T f) { st with totalFunc := st.totalFunc + 1 })
    rw [e]
    dsimp only
    split
    · exact ⟨_, _, rfl⟩
    · obtain ⟨⟨p, st2⟩, h⟩ := key st'
      exact ⟨p, st2, h⟩
  · exact ⟨_, _, rfl⟩

/-- The address found by the scans is that of an instruction of the block. -/
theorem scan_addr {l : List BInsn} {m : MoveInst} (h : entryData l = some m ∨ exitData l = some m) :
    ∃ i ∈ l, i.addr = m.newAddr := by
  rcases h with h | h
  · unfold entryData at h
    dsimp only at h
    split at h
    · rename_i hs
      cases h
      rcases entryScan_best l 0 {} (by decide) with e | ⟨pre, i, post, rfl, e, _⟩
      · rw [e] at hs; exact absurd hs.1 (by decide)
      · exact ⟨i, by simp, e.symm⟩
    · cases h
  · unfold exitData at h
    dsimp only at h
    split at h
    · rename_i hs
      cases h
      rcases exitScan_best l.reverse [] 0 {} (by decide) with e | ⟨r1, i, r2, e1, e, _⟩
      · rw [e] at hs; exact absurd hs.1 (by decide)
      · refine ⟨i, ?_, e.symm⟩
        rw [← List.mem_reverse, e1]
        simp
    · cases h

/-- C81.  Every program whose direct calls stay inside, of which Dyninst knows enough stack heights
and whose moved addresses were found by the scans, is analysed and instrumented: the programs
of C45, C79 and C80 exist for all such code. -/
theorem C81_builds_partial {fl : InstrFlags} (skip : List Nat) {co : CodeObj} {info : StackInfo}
    {R : Func → RegFacts} {bf : Func → BFunc} {code : Blk → List BInsn} (hok : CodeOk co) (hin : CallsInside co)
    (hfl : fl.shadowStack = "light" ∧ fl.asserts = true) (hh : HeightsFlow co info)
    (hf : ∀ f ∈ co.funcs, FuncOk co f) (hv : ∀ f ∈ co.funcs, View co info (bf f) f)
    (hinj : ∀ f ∈ co.funcs, ∀ b, b ∈ co.blocks f → ∀ c, c ∈ co.blocks f →
      co.start b = co.start c → b = c)
    (hscan : ∀ f ∈ co.funcs, ∀ b m,
      ((R f).entryData.lookup ((bf f).start b) = some m → entryData (code b) = some m) ∧
      ((R f).exitData.lookup ((bf f).start b) = some m → exitData (code b) = some m))
    (hinsn : ∀ f ∈ co.funcs, ∀ b, ∀ i ∈ code b, (bf f).isInsn b i.addr = true) :
    ∃ T plan, Built fl skip co info R T bf plan := by
  obtain ⟨T, hT⟩ := (C81_analysis co info R).mpr hin
  have hmv : MovesInside R co bf := by
    intro f hf b m hm
    obtain ⟨i, hi, e⟩ := scan_addr (l := code b) (m := m)
      (hm.imp (hscan f hf b m).1 (hscan f hf b m).2)
    rw [← e]
    exact hinsn f hf b i hi
  have hp : ∀ f ∈ co.funcs, ∃ p st', instrumentFunction fl skip co (fun _ => some (T f, [])) (bf f) {} =
      some (p, st') := fun f hf' =>
    C81_instrument_partial hok hT hh hmv hf' (hf f hf').wf (hv f hf').func (hinj f hf') (ws := [])
      nofun rfl skip {}
  refine ⟨T, fun f => if (bf f).noReturn = true ∨ (bf f).region ≠ ".text" then .skipped else
    ((instrumentFunction fl skip co (fun _ => some (T f, [])) (bf f) {}).map Prod.fst).getD .skipped,
    ⟨hok, hT, hfl.1, hfl.2, hf, hv, fun f _ hl => if_pos hl, fun f hf' h1 h2 => ?_⟩⟩
  obtain ⟨p, st', h⟩ := hp f hf'
  refine ⟨[], fun _ => some (T f, []), {}, st', rfl, ?_⟩
  rw [if_neg (by simp [h1, h2]), h]
  rfl

/-! ## Example, and a program on which the tool fails -/

def joinEdges : List Edge :=
  [{ id := 0, src := 0, trg := 2, type := .condTaken },
   { id := 1, src := 0, trg := 1, type := .condNotTaken },
   { id := 2, src := 1, trg := 2, type := .condTaken },
   { id := 3, src := 1, trg := 3, type := .condNotTaken },
   { id := 4, src := 2, trg := 9, type := .call, interproc := true },
   { id := 5, src := 3, trg := 0, type := .ret, sink := true, interproc := true }]

/-- Block 0 branches to 1 and 2, block 1 pushes a register and branches to 2 and 3, block 2 calls
`abort`, block 3 pops and returns. -/
def joinCode : CodeObj where
  funcs := [0]
  addr _ := 4096
  entry _ := 0
  blocks _ := [0, 1, 2, 3]
  exitBlocks _ := [3]
  targets b := joinEdges.filter fun e => e.src = b
  start b := 4096 + 16 * b
  last b := 4096 + 16 * b + 8
  funcsAt b := if b < 4 then [0] else []
  linkage a := if a = 4096 + 16 * 9 then some "abort".toList else none

/-- The stack heights, that of block 2 being `h`. -/
def joinInfo (h : Option Int) : StackInfo where
  insns _ := []
  heightStart b := if b = 2 then h else if b = 3 then some (-16) else some (-8)
  heightEnd b := if b = 1 then some (-16) else some (-8)

def joinFunc : BFunc where
  func := 0
  name := "f"
  base := 4096
  cfg :=
    { entries := [0], exits := [3], blocks := [0, 1, 2, 3]
      out := fun b => (joinCode.targets b).filter fun e => Follow e
      writes := fun _ => [false]
      returns := fun _ => [false, true] }
  entryPoints := [0]
  exitPoints := [3]
  start := joinCode.start
  isInsn := fun _ _ => true

theorem mem_joinEdges {b : Blk} {e : Edge} : e ∈ joinCode.targets b ↔ e ∈ joinEdges ∧ e.src = b := by
  simp [joinCode, List.mem_filter]

theorem join_ok : CodeOk joinCode where
  nodup := by decide
  start := by decide
  addr := by decide
  last := by decide
  oneCall b e he e' he' := by
    have : ∀ e ∈ joinEdges, ∀ e' ∈ joinEdges, e.type = .call → e'.type = .call → e = e' := by decide
    exact this e (mem_joinEdges.mp he).1 e' (mem_joinEdges.mp he').1

theorem join_wf : WellFormed joinCode 0 where
  src b e he := (mem_joinEdges.mp he).2
  entry := by decide
  closed := by decide
  ret b e he := by
    have : ∀ e ∈ joinEdges, e.type = .ret → ¬ Follow e := by decide
    exact this e (mem_joinEdges.mp he).1

theorem join_calls : CallsInside joinCode := by
  intro f hf b e g ⟨hb, he⟩ hd
  have : ∀ e ∈ joinEdges, e.type = .call → joinCode.linkage (joinCode.start e.trg) ≠ none := by decide
  exact absurd hd.2.2.1 (this e (mem_joinEdges.mp he).1 hd.1)

theorem join_heights : HeightsFlow joinCode (joinInfo (some (-8))) := by
  unfold HeightsFlow
  decide

/-- Example for `C81_analysis` and `C81_instrument_partial`: with a height for block 2 the
function is lowered. -/
example : ∃ T p st, analyse joinCode (joinInfo (some (-8))) (fun _ => {}) = some T ∧
    instrumentFunction {} [] joinCode (fun _ => some (T 0, [])) joinFunc {} = some (p, st) := by
  obtain ⟨T, hT⟩ := (C81_analysis joinCode (joinInfo (some (-8))) fun _ => {}).mpr join_calls
  obtain ⟨p, st, h⟩ := C81_instrument_partial (fl := {}) (bf := fun _ => joinFunc) (f := 0) (ws := [])
    (an := fun _ => some (T 0, [])) join_ok hT join_heights (by intro f _ b m h; rfl) (by decide) join_wf
    rfl (by decide) nofun rfl [] {}
  exact ⟨T, p, st, hT, h⟩

/-- **C81 fails** on a function in which paths with different stack heights meet in a block that
does not return: Dyninst knows no height there, the push is put there nevertheless, and the
assertion at `/repo/src/instrument.cc:503` fails. -/
theorem C81_refuted : ∃ T, CodeOk joinCode ∧ WellFormed joinCode 0 ∧
    analyse joinCode (joinInfo none) (fun _ => {}) = some T ∧
    ∀ st, instrumentFunction {} [] joinCode (fun _ => some (T 0, [])) joinFunc st = none := by
  obtain ⟨T, hT⟩ := (C81_analysis joinCode (joinInfo none) fun _ => {}).mpr join_calls
  refine ⟨T, join_ok, join_wf, hT, fun st => ?_⟩
  have hl : ((analyse joinCode (joinInfo none) fun _ => {}).map fun T =>
      ((doLowering {} joinCode 0 (some (T 0))).isNone, (T 0).safe)) = some (true, false) := by
    decide +kernel
  rw [hT] at hl
  simp only [Option.map_some, Option.some.injEq, Prod.mk.injEq, Option.isNone_iff_eq_none] at hl
  unfold instrumentFunction
  rw [if_pos rfl]
  simp only [countWrites, Option.map_some, skippable]
  simp [hl.2, instrumentLight, show joinFunc.func = 0 from rfl, hl.1]

/-- A call of a function outside the code object. -/
def strayCode : CodeObj :=
  { joinCode with
    funcsAt := fun b => if b = 9 then [7] else [0]
    entry := fun f => if f = 7 then 9 else 0
    linkage := fun _ => none }

/-- The analysis fails on it. -/
example (info : StackInfo) (R : Func → RegFacts) : analyse strayCode info R = none := by
  cases h : analyse strayCode info R with
  | none => rfl
  | some T =>
    have := (C81_analysis strayCode info R).mp ⟨T, h⟩ 0 (by decide) 2 _ 7
      ⟨by decide, mem_joinEdges.mpr ⟨List.getElem_mem (n := 4) (by decide), rfl⟩⟩
      ⟨rfl, rfl, rfl, [], [], rfl, rfl, nofun⟩
    exact absurd this (by decide)

/-- Example for `C81_builds_partial`. -/
example : ∃ T plan, Built {} goodProg.skip goodProg.code goodProg.info (fun _ => {}) T goodProg.bfunc plan :=
  C81_builds_partial (code := fun _ => []) _ goodProg_ok.code
    ((C81_analysis _ _ _).mp ⟨_, goodProg_ok.analysed⟩) ⟨rfl, rfl⟩
    (fun _ _ _ _ _ _ _ h => h) goodProg_ok.func goodProg_ok.built.view
    (fun _ _ b _ c _ h => by
      have h : 4096 + 16 * b = 4096 + 16 * c := h
      simp only [Nat.add_left_cancel_iff] at h
      exact Nat.eq_of_mul_eq_mul_left (by decide) h)
    (fun _ _ _ _ => ⟨nofun, nofun⟩) nofun

end Verif
