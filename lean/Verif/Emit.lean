import Verif.Snippets

/-!
Which registers a stack snippet may clobber, how many bytes below the stack pointer
it uses and where it looks for the return address, as a function of the flags and of
the analysis results; and that the emitter follows this table.
-/

namespace Verif

/-- Registers which the analyses declared dead for this snippet.  `/repo/src/jit.cc:104-135`. -/
def ScratchFree (fl : JitFlags) (dead : List String) (mid : Option MoveInst) (r : Reg) : Prop :=
  match mid with
  | some m => r.name = m.reg1 ∨ (m.saveCount = 2 ∧ r.name = m.reg2)
  | none => fl.optimizeRegs = true ∧ r.name ∈ dead

/-- Bytes below the stack pointer which the snippet overwrites.  `/repo/src/jit.cc:92-135`. -/
def belowSp (fl : JitFlags) (dead : List String) (mid : Option MoveInst) : Nat :=
  match mid with
  | some m => if m.saveCount = 2 then 0 else 8
  | none => if fl.optimizeRegs = true ∧ dead ≠ [] then 0 else 16

/-- Inputs for which the emitter is defined: register names are known and distinct,
and under `--optimize_regs` the dead set is empty or has at least four elements.
`/repo/src/jit.cc:104-135`. -/
structure ScratchOk (fl : JitFlags) (dead : List String) (mid : Option MoveInst) : Prop where
  move : ∀ m, mid = some m →
    KnownName m.reg1 ∧ (m.saveCount = 2 → KnownName m.reg2 ∧ m.reg1 ≠ m.reg2)
  dead : mid = none → fl.optimizeRegs = true → dead ≠ [] →
    4 ≤ dead.length ∧ dead.Nodup ∧ ∀ n, n ∈ dead → KnownName n

/-- Registers declared dead at the function entry.  `/repo/src/jit.cc:207`. -/
def deadEntry (sm : Option JitSummary) : List String :=
  match sm with
  | some s => s.deadAtEntry
  | none => []

/-- Registers declared dead at the exit `addr`.  `/repo/src/jit.cc:353-359`. -/
def deadExit (sm : Option JitSummary) (addr : Nat) : List String :=
  match sm with
  | some s => (s.deadAtExit addr).getD []
  | none => []

/-- Displacement of the return address from rsp at a push (`/repo/src/jit.cc:203-210`). -/
def pushDisp (sm : Option JitSummary) (mid : Option MoveInst) (height : Int) : Int :=
  match mid, sm with
  | some m, _ => m.raOffset + height
  | none, some _ => height
  | none, none => 0

/-- Displacement of the return address from rsp at a check.  `/repo/src/jit.cc:351,355,358`. -/
def popDisp (mid : Option MoveInst) : Int :=
  match mid with
  | some m => m.raOffset
  | none => 0

theorem knownName_r8 : KnownName "x86_64::r8" := ⟨.r8, by decide, rfl⟩
theorem knownName_r9 : KnownName "x86_64::r9" := ⟨.r9, by decide, rfl⟩

/-- The result of choosing scratch registers.  `/repo/src/jit.cc:26-33`. -/
structure Chosen (fl : JitFlags) (dead : List String) (mid : Option MoveInst) (off : Int)
    (r : Option (Code × Temps)) : Prop where

  out : ∃ c1 t t1 t2 b1 b2, r = some (c1, t) ∧ Shape c1 t off t1 t2 b1 b2 ∧
    nsave b1 b2 = belowSp fl dead mid ∧ ∀ x, freeOf t1 t2 b1 b2 x → ScratchFree fl dead mid x

theorem chosen_move {fl : JitFlags} {dead : List String} {m : MoveInst}
    (h : ScratchOk fl dead (some m)) (height : Int) :
    Chosen fl dead (some m) (m.raOffset + height) (useSpecified m height) := by
  obtain ⟨h1, h2⟩ := h.move m rfl
  obtain ⟨r1, e1⟩ := regOf_known h1
  by_cases hc : m.saveCount = 2
  · obtain ⟨h2, hne⟩ := h2 hc
    obtain ⟨r2, e2⟩ := regOf_known h2
    obtain ⟨c1, t, he, hs⟩ := useSpecified_two height hc e1 e2 (regOf_ne e1 e2 hne)
    refine ⟨⟨c1, t, r1, r2, false, false, he, hs, by simp [nsave, belowSp, hc], ?_⟩⟩
    rintro x (⟨rfl, _⟩ | ⟨rfl, _⟩)
    · exact Or.inl (regOf_iff.1 e1).2
    · exact Or.inr ⟨hc, (regOf_iff.1 e2).2⟩
  · obtain ⟨c1, t, r2, he, hs⟩ := useSpecified_one height hc e1
    refine ⟨⟨c1, t, r1, r2, false, true, he, hs, by simp [nsave, belowSp, hc], ?_⟩⟩
    rintro x (⟨rfl, _⟩ | ⟨rfl, h⟩)
    · exact Or.inl (regOf_iff.1 e1).2
    · cases h

theorem chosen_temps {fl : JitFlags} {dead : List String} (h : ScratchOk fl dead none)
    (height : Int) : Chosen fl dead none height (saveTemps fl dead [] height) := by
  by_cases ho : fl.optimizeRegs = true ∧ dead ≠ []
  · obtain ⟨hl, hn, hk⟩ := h.dead rfl ho.1 ho.2
    obtain ⟨c1, t, r1, r2, he, hs, m1, m2⟩ := saveTemps_dead (ex := []) ho.1 hl hn hk height
    refine ⟨⟨c1, t, r1, r2, false, false, he, hs, by simp [nsave, belowSp, ho], ?_⟩⟩
    rintro x (⟨rfl, _⟩ | ⟨rfl, _⟩)
    · exact ⟨ho.1, m1⟩
    · exact ⟨ho.1, m2⟩
  · have ho' : fl.optimizeRegs = false ∨ dead = [] := by
      by_cases hd : dead = []
      · exact Or.inr hd
      · cases hf : fl.optimizeRegs
        · exact Or.inl rfl
        · exact absurd ⟨hf, hd⟩ ho
    obtain ⟨c1, t, r1, r2, he, hs, _, _⟩ := saveTemps_default (ex := []) ho' knownName_r8
      knownName_r9 (by decide) (by simp) (by simp) height
    refine ⟨⟨c1, t, r1, r2, true, true, he, hs, by simp [nsave, belowSp, ho], ?_⟩⟩
    rintro x (⟨rfl, h⟩ | ⟨rfl, h⟩) <;> cases h

theorem chosen_push {fl : JitFlags} {sm : Option JitSummary} {mid : Option MoveInst}
    (h : ScratchOk fl (deadEntry sm) mid) (height : Int) :
    Chosen fl (deadEntry sm) mid (pushDisp sm mid height)
      (pushTemps fl sm mid height) := by
  cases mid with
  | some m => exact chosen_move h height
  | none =>
    cases sm with
    | none => exact chosen_temps h 0
    | some s => exact chosen_temps h height

theorem chosen_pop {fl : JitFlags} {sm : Option JitSummary} {mid : Option MoveInst} {addr : Nat}
    (h : ScratchOk fl (deadExit sm addr) mid) :
    Chosen fl (deadExit sm addr) mid (popDisp mid)
      (popTemps fl sm mid addr) := by
  cases mid with
  | some m =>
    have := chosen_move h 0
    rw [Int.add_zero] at this
    exact this
  | none =>
    cases sm with
    | none => exact chosen_temps h 0
    | some s =>
      simp only [deadExit, popTemps] at h ⊢
      cases hd : s.deadAtExit addr with
      | none => rw [hd] at h; exact chosen_temps h 0
      | some d => rw [hd] at h; exact chosen_temps h 0

theorem SameExcept.mono {f f' : Reg → Prop} {a : List (W × Nat)} {s s' : State}
    (h : SameExcept f a s s') (hf : ∀ r, f r → f' r) : SameExcept f' a s s' :=
  ⟨h.rsp, fun r hr => h.regs r fun hc => hr (hf r hc), h.gs, h.mem⟩

theorem Pushed.mono {f f' : Reg → Prop} {R : W} {n : Nat} {s s' : State}
    (h : Pushed f R n s s') (hf : ∀ r, f r → f' r) : Pushed f' R n s s' :=
  ⟨h.recorded, h.pointer, h.same.mono hf, h.flags⟩

theorem Checked.mono {f f' : Reg → Prop} {n i : Nat} {s s' : State}
    (h : Checked f n i s s') (hf : ∀ r, f r → f' r) : Checked f' n i s s' :=
  ⟨h.pointer, h.same.mono hf⟩

/-- Neither dry-run mode nor frame validation.  `/repo/src/jit.cc:192,220-221`. -/
structure Normal (fl : JitFlags) : Prop where
  notEmpty : fl.dryRun ≠ "empty"
  notSave : fl.dryRun ≠ "only-save"
  noFrame : fl.validateFrame = false

/-- Emission and execution of a push. -/
theorem push_correct {fl : JitFlags} (hf : Normal fl) {sm : Option JitSummary}
    {mid : Option MoveInst} (h : ScratchOk fl (deadEntry sm) mid) (height : Int) :
    ∃ code, stackPushWith fl sm mid height = some code ∧ ∀ s : State,
      PushSep (s.regs .rsp + BitVec.ofInt 64 (pushDisp sm mid height))
        (belowSp fl (deadEntry sm) mid) s →
      ∃ s', Exits code s s' ∧
        Pushed (ScratchFree fl (deadEntry sm) mid)
          (s.regs .rsp + BitVec.ofInt 64 (pushDisp sm mid height))
          (belowSp fl (deadEntry sm) mid) s s' := by
  obtain ⟨c1, t, t1, t2, b1, b2, he, hs, hn, hfree⟩ := (chosen_push h height).out
  refine ⟨c1 ++ saveRa t1 t2 t ++ restoreCode t1 t2 b1 b2, ?_, fun s hsep => ?_⟩
  · unfold stackPushWith
    rw [if_neg hf.notEmpty, he]
    simp [body, hs.tmp1, hs.tmp2, hf.notSave, hf.noFrame, hs.restore]
  · rw [← hn] at hsep ⊢
    obtain ⟨s', hx, hp⟩ := exits_push hs s hsep
    exact ⟨s', hx, hp.mono hfree⟩

/-- Emission and execution of a check. -/
theorem pop_correct {fl : JitFlags} (hf : Normal fl) {sm : Option JitSummary}
    {mid : Option MoveInst} {addr : Nat} (h : ScratchOk fl (deadExit sm addr) mid) :
    ∃ code, stackPopWith fl sm mid addr = some code ∧ ∀ (s : State) (n : Nat),
      CheckSep (s.regs .rsp + BitVec.ofInt 64 (popDisp mid))
        (belowSp fl (deadExit sm addr) mid) (n + 1) s →
      (∀ i, i < n → s.entry i ≠ s.mem.read64 (s.regs .rsp + BitVec.ofInt 64 (popDisp mid)) ∧
        ¬ GuardLike (s.entry i)) →
      (s.entry n = s.mem.read64 (s.regs .rsp + BitVec.ofInt 64 (popDisp mid)) →
        ∃ s', Exits code s s' ∧ Checked (ScratchFree fl (deadExit sm addr) mid)
          (belowSp fl (deadExit sm addr) mid) n s s') ∧
      (s.entry n ≠ s.mem.read64 (s.regs .rsp + BitVec.ofInt 64 (popDisp mid)) →
        GuardLike (s.entry n) → Traps code s) := by
  obtain ⟨c1, t, t1, t2, b1, b2, he, hs, hn, hfree⟩ := (chosen_pop h).out
  refine ⟨c1 ++ validateRa t1 t2 t ++ restoreCode t1 t2 b1 b2, ?_, fun s n hsep hlt => ⟨?_, ?_⟩⟩
  · unfold stackPopWith
    rw [if_neg hf.notEmpty, he]
    simp [body, hs.tmp1, hs.tmp2, hf.notSave, hf.noFrame, hs.restore]
  · intro hm
    rw [← hn] at hsep ⊢
    obtain ⟨s', hc, hx⟩ := exits_check (pre := []) (post := []) (by simp) hs s n hsep hlt hm
    refine ⟨s', ?_, hc.mono hfree⟩
    have := hx _ (ends_nil _ _)
    rw [exits_iff]
    simpa using this
  · intro hm hg
    rw [← hn] at hsep
    obtain ⟨s', hx⟩ := traps_check (pre := []) (post := []) (by simp) hs s n hsep hlt hm hg
    exact traps_iff.2 ⟨s', by simpa using hx⟩

end Verif
