import Verif.Props.Lowering
import Verif.Props.Moved
import Verif.Props.RegFrame

/-!
# C37: lowered pushes and the red zone
-/

namespace Verif

/-- The block analysis filled in the summary: for each block the place of the entry push and the
registers dead at the block's beginning (`/repo/src/passes.h:771-783`). -/
structure FromScan (co : CodeObj) (f : Func) (code : Blk → List BInsn) (s : FuncSummary) : Prop where
  entry : ∀ b ∈ co.blocks f, s.entryData.lookup (co.start b) = entryData (code b)
  fixed : ∀ b ∈ co.blocks f, s.entryFixedData.lookup (co.start b) = entryFixed (code b)
  addr : ∀ b ∈ co.blocks f, ∀ i ∈ code b, 0 < i.addr

/-- The part of the summary which the emitter reads (`/repo/src/jit.cc:195-210`). -/
def FuncSummary.jit (s : FuncSummary) (dead : DeadNames) : JitSummary where
  deadAtEntry := dead.entry
  deadAtExit := dead.exit
  unusedRegs := s.unusedRegs
  entryData := fun a => s.entryData.lookup a
  entryFixedData := fun a => s.entryFixedData.lookup a
  exitData := fun a => s.exitData.lookup a

/-- The code emitted for a push in the block starting at `b` or on an edge from there to `trg`
(`/repo/src/instrument.cc:118-150`). -/
def PushKind.code (jf : JitFlags) (js : JitSummary) (k : PushKind) (b trg : Nat) : Option Code :=
  match k with
  | .reg h => jitRegisterPush jf js h
  | .stack useOrig h useFixed => jitStackPush jf (some js) useOrig h useFixed b trg

theorem fixed_scan {l : List BInsn} {mid : MoveInst} (h : entryFixed l = some mid) :
    Scratch2 (deadRegs l) mid ∧
      (mid.saveCount = 2 → (∀ i ∈ l, 0 < i.addr) → entryData l = some mid) := by
  cases l with
  | nil => cases h
  | cons i rest =>
    unfold entryFixed at h
    dsimp only at h
    split at h
    · rename_i hc
      cases h
      by_cases hd : (deadRegs (i :: rest)).length > 0
      · have e : ({} : Scan).improve i.addr 0 (deadRegs (i :: rest)) =
            { newAddr := i.addr,
              saveCount := if (deadRegs (i :: rest)).length > 2 then 2 else (deadRegs (i :: rest)).length,
              raOffset := 0, dead := deadRegs (i :: rest) } := by
          unfold Scan.improve
          rw [if_pos hd]
        refine ⟨?_, fun h2 ha => ?_⟩
        · have := scan_data (({} : Scan).improve i.addr 0 (deadRegs (i :: rest))) (by
            rw [e]; dsimp only; split <;> omega) hc (by rw [e]; exact deadRegs_nodup _)
          rwa [show (({} : Scan).improve i.addr 0 (deadRegs (i :: rest))).dead =
            deadRegs (i :: rest) by rw [e]] at this
        · unfold entryData
          have hs : entryScan (i :: rest) 0 {} = ({} : Scan).improve i.addr 0 (deadRegs (i :: rest)) := by
            rw [entryScan]
            exact if_pos h2
          dsimp only
          rw [hs, if_pos ⟨hc, by rw [e]; exact ha i (by simp)⟩]
      · have e : ({} : Scan).improve i.addr 0 (deadRegs (i :: rest)) = {} := by
          unfold Scan.improve
          rw [if_neg hd]
        rw [e] at hc
        exact absurd hc (by decide)
    · cases h

/-- Where a push may be inserted: on edges or in blocks.  The pair is the start of the block and
of the target. -/
def Lowered.HasPush (L : Lowered) (co : CodeObj) (k : PushKind) (b trg : Nat) : Prop :=
  (∃ e, (e, k) ∈ L.edgePush ∧ b = co.start e.src ∧ trg = co.start e.trg) ∨
  (∃ n a, (n, k, a) ∈ L.blockPush ∧ b = co.start n.1)

theorem mem_mapM {α β : Type} {f : α → Option β} :
    ∀ (l : List α) (l' : List β), l.mapM f = some l' → ∀ y ∈ l', ∃ x ∈ l, f x = some y := by
  intro l
  induction l with
  | nil => intro l' h y hy; simp at h; subst h; cases hy
  | cons a l ih =>
    intro l' h
    rw [List.mapM_cons] at h
    cases ha : f a with
    | none => rw [ha] at h; cases h
    | some z =>
      rw [ha] at h
      cases hl : l.mapM f with
      | none => rw [hl] at h; cases h
      | some zs =>
        rw [hl] at h
        cases h
        intro y hy
        rcases List.mem_cons.mp hy with rfl | hy
        · exact ⟨a, by simp, ha⟩
        · obtain ⟨x, hx, he⟩ := ih zs hl y hy
          exact ⟨x, by simp [hx], he⟩

/-- The pushes as computed. -/
theorem low_pushes {fl : InstrFlags} {co : CodeObj} {f : Func} {s : FuncSummary} {L : Lowered}
    (h : doLowering fl co f (some s) = some (some L)) :
    (∀ p ∈ L.edgePush, edgePushOf fl co s (s.shouldUseRegisterFrame && !fl.disableRegFrame) p.1 = some p) ∧
    (∀ p ∈ L.blockPush, blockPushOf fl co s (s.shouldUseRegisterFrame && !fl.disableRegFrame) p.1 = some p) := by
  simp only [doLowering] at h
  split at h
  · cases h
  split at h
  · cases h
  split at h
  · cases h
  cases hr : redirectEdges co.targets (stopAt co s) (((co.blocks f).flatMap co.targets).length + 1) {}
      (co.entry f) with
  | none => rw [hr] at h; cases h
  | some r =>
    rw [hr] at h
    simp only [bind, Option.bind] at h
    split at h
    · cases h
    split at h
    · cases h
    cases hL : lowerWith fl co f s r.redirect with
    | none => rw [hL] at h; cases h
    | some L' =>
      rw [hL] at h
      cases h
      unfold lowerWith at hL
      simp only [bind, Option.bind] at hL
      split at hL
      · cases hL
      dsimp only at hL
      split at hL
      · cases hL
      dsimp only at hL
      split at hL
      · cases hL
      dsimp only at hL
      split at hL
      · cases hL
      rename_i ep hep
      dsimp only at hL
      split at hL
      · cases hL
      rename_i bp hbp
      cases hL
      constructor
      · intro p hp
        obtain ⟨x, _, hx⟩ := mem_mapM _ _ hep p hp
        rw [edgePushOf_fst x p hx]; exact hx
      · intro p hp
        obtain ⟨x, _, hx⟩ := mem_mapM _ _ hbp p hp
        rw [blockPushOf_fst x p hx]; exact hx

/-- In a function that uses the red zone and no register frame, every push finds two dead
registers. -/
theorem push_two_dead {fl : InstrFlags} {co : CodeObj} {f : Func} {s : FuncSummary} {L : Lowered}
    {code : Blk → List BInsn} (hwf : WellFormed co f) (ha : fl.asserts = true)
    (h : doLowering fl co f (some s) = some (some L)) (hs : FromScan co f code s)
    (hrz : s.redZoneAccess ≠ []) (hopt : fl.disableRegSaveOpt = false)
    (hreg : (s.shouldUseRegisterFrame && !fl.disableRegFrame) = false) {k : PushKind} {b trg : Nat}
    (hk : L.HasPush co k b trg) (dead : DeadNames) :
    ∃ o ht x mid bl, k = .stack o ht x ∧ pushMove (some (s.jit dead)) o x b trg = some (some mid) ∧
      mid.saveCount = 2 ∧ Scratch2 (deadRegs (code bl)) mid := by
  obtain ⟨p1, p2⟩ := low_pushes h
  obtain ⟨r, reach, cs, _, _, hconf, hl⟩ := low_facts ha h
  have hR : ∀ e ∈ r.redirect, ∃ mid, s.entryFixedData.lookup (co.start e.trg) = some mid ∧
      mid.saveCount = 2 ∧ Scratch2 (deadRegs (code e.trg)) mid ∧
      s.entryData.lookup (co.start e.trg) = some mid := by
    intro e he
    obtain ⟨c, h1, h2, h3, _⟩ := (hl.redirect e).mp he
    have hb := hwf.closed _ (safe_walk hwf hl h1).1 _ h2 h3
    have hc : ¬ (match s.entryFixedData.lookup (co.start e.trg) with
        | none => true
        | some mid => decide (mid.saveCount < 2)) = true := by
      intro hc
      have : redZoneConflict fl co s r.redirect = true := by
        simp only [redZoneConflict, hreg, Bool.not_false, Bool.true_and, Bool.and_eq_true]
        refine ⟨by cases hz : s.redZoneAccess with
          | nil => exact absurd hz hrz
          | cons => rfl, List.any_eq_true.mpr ⟨e, he, hc⟩⟩
      rw [hconf] at this; cases this
    cases hf : s.entryFixedData.lookup (co.start e.trg) with
    | none => rw [hf] at hc; exact absurd rfl hc
    | some mid =>
      rw [hf] at hc
      have hfix : entryFixed (code e.trg) = some mid := by rw [← hs.fixed _ hb, hf]
      obtain ⟨g1, g2⟩ := fixed_scan hfix
      have h2 : mid.saveCount = 2 := by
        rcases g1.count with h | h
        · exact absurd (by simp [h]) hc
        · exact h
      exact ⟨mid, rfl, h2, g1, by rw [hs.entry _ hb]; exact g2 h2 (hs.addr _ hb)⟩
  rcases hk with ⟨e, he, rfl, rfl⟩ | ⟨n, a, hn, rfl⟩
  · have hcs : e ∈ cs.redirect := by
      rw [← hl.edges]; exact List.mem_map.mpr ⟨_, he, rfl⟩
    obtain ⟨mid, h1, h2, h3, _⟩ := hR e (hl.coalesced.sub e hcs)
    have hp := p1 _ he
    rw [hreg] at hp
    unfold edgePushOf at hp
    cases hh : s.blockEndSPHeight.lookup (co.start e.src) with
    | none => rw [hh] at hp; cases hp
    | some v =>
      rw [hh] at hp
      simp only [bind, Option.bind, hopt, h1] at hp
      cases hp
      exact ⟨_, _, _, mid, e.trg, rfl, by simp [pushMove, FuncSummary.jit, h1], h2, h3⟩
  · have hcs : n ∈ cs.inst := by
      rw [← hl.blocks]; exact List.mem_map.mpr ⟨_, hn, rfl⟩
    obtain ⟨e, he, hd⟩ := hl.coalesced.some n hcs
    have hn1 : n.1 = e.trg := by rw [← hd]; exact hl.dest_fst _ _
    obtain ⟨mid, _, h2, h3, h4⟩ := hR e he
    rw [← hn1] at h4
    have hp := p2 _ hn
    rw [hreg] at hp
    unfold blockPushOf at hp
    cases hh : s.blockEntrySPHeight.lookup (co.start n.1) with
    | none => rw [hh] at hp; cases hp
    | some v =>
      rw [hh] at hp
      simp only [bind, Option.bind, hopt, h4] at hp
      cases hp
      exact ⟨_, _, _, mid, e.trg, rfl, by simp [pushMove, FuncSummary.jit, h4], h2, h3⟩

/-- **C37, what holds.** Without `--disable_reg_save_opt`, in a function that uses the red zone
and no register frame: every push inserted by lowering is emitted and falls through, and it
changes no memory outside the shadow slot and the shadow pointer word; in particular nothing
below `rsp`.  Missing: `--disable_reg_save_opt`, with which it is false. -/
theorem C37_red_zone_partial {fl : InstrFlags} {co : CodeObj} {f : Func} {s : FuncSummary}
    {L : Lowered} {code : Blk → List BInsn} (hwf : WellFormed co f) (ha : fl.asserts = true)
    (h : doLowering fl co f (some s) = some (some L)) (hs : FromScan co f code s)
    (hrz : s.redZoneAccess ≠ []) (hopt : fl.disableRegSaveOpt = false)
    (hreg : (s.shouldUseRegisterFrame && !fl.disableRegFrame) = false) {k : PushKind} {b trg : Nat}
    (hk : L.HasPush co k b trg) (dead : DeadNames) {jf : JitFlags} (hf : Normal jf) :
    ∃ c, k.code jf (s.jit dead) b trg = some c ∧ ∀ st : State, Sep st.shadow 8 st.gs 8 →
      ∃ st', Exits c st st' ∧ ∀ a, ¬ InRange a st.shadow 8 → ¬ InRange a st.gs 8 →
        st'.mem a = st.mem a := by
  obtain ⟨o, ht, x, mid, bl, rfl, hm, h2, hsc⟩ := push_two_dead hwf ha h hs hrz hopt hreg hk dead
  have hok : ScratchOk jf (deadEntry (some (s.jit dead))) (some mid) := scratchOk_of_scan hsc
  obtain ⟨c, hc, hx⟩ := C01_push_records hf (some (s.jit dead)) o x ht b trg (some mid) hm hok
  have hz : belowSp jf (deadEntry (some (s.jit dead))) (some mid) = 0 := by simp [belowSp, h2]
  refine ⟨c, hc, fun st hsep => ?_⟩
  have hps : PushSep (st.regs .rsp + BitVec.ofInt 64 (pushDisp (some (s.jit dead)) (some mid) ht))
      (belowSp jf (deadEntry (some (s.jit dead))) (some mid)) st := by
    rw [hz]
    exact ⟨hsep, sep_zero, sep_zero, sep_zero⟩
  obtain ⟨st', hex, _⟩ := hx st hps
  refine ⟨st', hex, fun a h1 h2 => ?_⟩
  obtain ⟨_, ht⟩ := C02_push_transparent hf (some (s.jit dead)) o x ht b trg (some mid) hm hok c hc st hps
  refine (ht st' hex).2.2.2.2 a h1 h2 ?_
  rw [hz]
  simp [InRange]

/-- A register frame push never touches the program stack. -/
theorem C37_register_frame {jf : JitFlags} (hf : Normal jf) {js : JitSummary} {reg : Reg}
    (h : RegChoice js reg) (height : Int) :
    ∃ c, jitRegisterPush jf js height = some c ∧ ∀ st : State,
      Sep (st.regs .rsp + BitVec.ofInt 64 height) 8 (st.gs + 8) 8 →
      ∃ st', Exits c st st' ∧ ∀ a, ¬ InRange a (st.gs + 8) 8 → st'.mem a = st.mem a := by
  obtain ⟨c, hc, hx⟩ := regPush_exits hf h height
  refine ⟨c, hc, fun st hsep => ⟨_, hx st hsep, fun a ha => ?_⟩⟩
  exact if_neg ha

/-! ## Example and counterexample -/

/-- The instructions of the blocks of `lowGraph`: block 2 overwrites `rax` and `rcx`. -/
def rzCode (b : Blk) : List BInsn :=
  if b = 2 then [leaInsn 16 .rax .rbx, leaInsn 20 .rcx .rbx] else []

/-- What the block analysis finds there. -/
def rzMid : MoveInst :=
  { newAddr := 16, raOffset := 0, saveCount := 2, reg1 := "x86_64::rax", reg2 := "x86_64::rcx" }

/-- The summary of a function that uses the red zone. -/
def rzSum : FuncSummary :=
  { lowSum [2, 3] with
    redZoneAccess := [16]
    entryData := [(2, rzMid)]
    entryFixedData := [(2, rzMid)] }

theorem rzSum_scan : FromScan lowGraph 0 rzCode rzSum where
  entry := by decide
  fixed := by decide
  addr := by decide

/-- The hypotheses of `C37_red_zone_partial` hold for this function, and there is a push. -/
example : ∃ L, doLowering {} lowGraph 0 (some rzSum) = some (some L) ∧ rzSum.redZoneAccess ≠ [] ∧
    L.HasPush lowGraph (.stack false 0 true) 0 2 :=
  ⟨_, rfl, by decide, .inl ⟨⟨1, 0, 2, .condNotTaken, false, false⟩, by decide, rfl, rfl⟩⟩

/-- The push emitted for it with `--disable_reg_save_opt`. -/
def rzPush : Code := ((jitStackPush {} (some (rzSum.jit {})) false 0 false 0 2).getD [])

/-- Its result, by execution. -/
def rzAfter : Option State :=
  match run rzPush 40 rzPush (sampleState 0x401000 []) with
  | some (.exit s) => some s
  | _ => none

/-- **C37 is false with `--disable_reg_save_opt`.** The test for the red zone looks at the dead
registers, the emission ignores them: the push inserted on the edge to block 2 overwrites the
word below `rsp`. -/
theorem C37_refuted : ∃ (L : Lowered) (k : PushKind) (s' : State),
    doLowering { disableRegSaveOpt := true } lowGraph 0 (some rzSum) = some (some L) ∧
    rzSum.redZoneAccess ≠ [] ∧ L.HasPush lowGraph k 0 2 ∧
    k.code {} (rzSum.jit {}) 0 2 = some rzPush ∧
    Exits rzPush (sampleState 0x401000 []) s' ∧
    (sampleState 0x401000 []).mem.read64 ((sampleState 0x401000 []).regs .rsp - 8) = 0 ∧
    s'.mem.read64 ((sampleState 0x401000 []).regs .rsp - 8) = 7 := by
  have h1 : (rzAfter.map fun s => s.mem.read64 ((sampleState 0x401000 []).regs .rsp - 8)) = some 7 := by
    decide
  have h2 : jitStackPush {} (some (rzSum.jit {})) false 0 false 0 2 = some rzPush := by decide
  unfold rzAfter at h1
  split at h1
  · rename_i s hs
    exact ⟨_, .stack false 0 false, s, rfl, by decide,
      .inl ⟨⟨1, 0, 2, .condNotTaken, false, false⟩, by decide, rfl, rfl⟩, h2, ⟨40, hs⟩, by decide,
      by simpa using h1⟩
  · cases h1

end Verif
