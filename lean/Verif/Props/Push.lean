import Verif.Emit
import Verif.Witness

/-!
C01, C02: the code emitted for a stack push records the return address and is
otherwise invisible to the program.
-/

namespace Verif

/-- C01.  For every flag setting outside the dry-run and frame modes, every summary,
height and move descriptor for which scratch registers can be chosen, the push code is
emitted; and in every machine state it falls through, having stored the return address
in the slot designated by the shadow pointer and advanced the pointer by 8.  Any other
word, in particular any other shadow entry, is unchanged. -/
theorem C01_push_records {fl : JitFlags} (hf : Normal fl) (sm : Option JitSummary)
    (useOrig useFixed : Bool) (height : Int) (blockStart trgStart : Nat) (mid : Option MoveInst)
    (hm : pushMove sm useOrig useFixed blockStart trgStart = some mid)
    (hok : ScratchOk fl (deadEntry sm) mid) :
    ∃ code, jitStackPush fl sm useOrig height useFixed blockStart trgStart = some code ∧
      ∀ s : State,
        let R := s.regs .rsp + BitVec.ofInt 64 (pushDisp sm mid height)
        let n := belowSp fl (deadEntry sm) mid
        PushSep R n s →
        ∃ s', Exits code s s' ∧ s'.mem.read64 s.shadow = s.mem.read64 R ∧
          s'.shadow = s.shadow + 8 ∧
          ∀ a, Sep a 8 s.shadow 8 → Sep a 8 s.gs 8 →
            Sep a 8 (s.regs .rsp - BitVec.ofNat 64 n) n → s'.mem.read64 a = s.mem.read64 a := by
  obtain ⟨code, he, hx⟩ := push_correct hf hok height
  refine ⟨code, ?_, fun s hsep => ?_⟩
  · simp [jitStackPush, hf.notEmpty, hm, he]
  · obtain ⟨s', h1, h2⟩ := hx s hsep
    refine ⟨s', h1, h2.recorded, h2.pointer, fun a e1 e2 e3 => ?_⟩
    refine read64_eq _ _ _ fun x hx => h2.same.mem x ?_
    intro p hp
    rcases List.mem_cons.1 hp with rfl | hp
    · exact sep_not_inRange e1 hx
    rcases List.mem_cons.1 hp with rfl | hp
    · exact sep_not_inRange e2 hx
    rw [List.mem_singleton] at hp; subst hp
    exact sep_not_inRange e3 hx

/-- C02.  Whenever the push code falls through, the registers not declared dead, rsp,
the flags, the gs base and all memory outside the shadow slot, the shadow pointer word
and the save area below rsp are as before. -/
theorem C02_push_transparent {fl : JitFlags} (hf : Normal fl) (sm : Option JitSummary)
    (useOrig useFixed : Bool) (height : Int) (blockStart trgStart : Nat) (mid : Option MoveInst)
    (hm : pushMove sm useOrig useFixed blockStart trgStart = some mid)
    (hok : ScratchOk fl (deadEntry sm) mid) (code : Code)
    (hc : jitStackPush fl sm useOrig height useFixed blockStart trgStart = some code)
    (s : State)
    (hsep : PushSep (s.regs .rsp + BitVec.ofInt 64 (pushDisp sm mid height))
      (belowSp fl (deadEntry sm) mid) s) :
    ¬ Traps code s ∧ ∀ s', Exits code s s' →
      s'.regs .rsp = s.regs .rsp ∧ s'.flags = s.flags ∧ s'.gs = s.gs ∧
      (∀ r, ¬ ScratchFree fl (deadEntry sm) mid r → s'.regs r = s.regs r) ∧
      ∀ x, ¬ InRange x s.shadow 8 → ¬ InRange x s.gs 8 →
        ¬ InRange x (s.regs .rsp - BitVec.ofNat 64 (belowSp fl (deadEntry sm) mid))
          (belowSp fl (deadEntry sm) mid) → s'.mem x = s.mem x := by
  obtain ⟨code', he, hx⟩ := push_correct hf hok height
  have : code' = code := by
    simp [jitStackPush, hf.notEmpty, hm, he] at hc
    exact hc
  subst this
  obtain ⟨s', h1, h2⟩ := hx s hsep
  refine ⟨h1.not_traps, fun s'' h => ?_⟩
  have := h1.det h
  subst this
  refine ⟨h2.same.rsp, h2.flags, h2.same.gs, h2.same.regs, fun x e1 e2 e3 => h2.same.mem x ?_⟩
  intro p hp
  rcases List.mem_cons.1 hp with rfl | hp
  · exact e1
  rcases List.mem_cons.1 hp with rfl | hp
  · exact e2
  rw [List.mem_singleton] at hp; subst hp
  exact e3

/-- The hypotheses can be met: default scratch registers, -/
example : ScratchOk {} (deadEntry none) none :=
  ⟨by simp, by simp⟩

/-- a move descriptor with one free register, -/
example : ScratchOk {} (deadEntry none) (some ⟨64, 8, 1, "x86_64::r10", ""⟩) :=
  ⟨by simp; exact ⟨.r10, by decide, rfl⟩, by simp⟩

/-- four dead registers, -/
example : ScratchOk { optimizeRegs := true }
    ["x86_64::r10", "x86_64::r11", "x86_64::rdi", "x86_64::rsi"] none :=
  ⟨by simp, by
    intro _ _ _
    refine ⟨by decide, by decide, ?_⟩
    intro n hn
    simp at hn
    rcases hn with rfl | rfl | rfl | rfl
    · exact ⟨.r10, by decide, rfl⟩
    · exact ⟨.r11, by decide, rfl⟩
    · exact ⟨.rdi, by decide, rfl⟩
    · exact ⟨.rsi, by decide, rfl⟩⟩

/-- and a machine state. -/
theorem sample_pushSep : PushSep (0x7000 + BitVec.ofInt 64 0) 16 (sampleState 0x401000 [0x402000]) where
  slot_gs := sep_of_le (by decide) (by decide) (by decide)
  ret_save := sep_of_le (by decide) (by decide) (by decide)
  slot_save := sep_of_le (by decide) (by decide) (by decide)
  gs_save := sep_of_le (by decide) (by decide) (by decide)

example : ∃ code s', jitStackPush {} none false 0 false 0 0 = some code ∧
    Exits code (sampleState 0x401000 [0x402000]) s' ∧
    s'.mem.read64 0x100028 = 0x401000 ∧ s'.shadow = 0x100030 := by
  obtain ⟨code, h1, h2⟩ := C01_push_records (fl := {}) ⟨by decide, by decide, rfl⟩ none false false
    0 0 0 none rfl ⟨by simp, by simp⟩
  obtain ⟨s', h3, h4, h5, _⟩ := h2 (sampleState 0x401000 [0x402000]) sample_pushSep
  refine ⟨code, s', h1, h3, ?_, ?_⟩
  · have e : (sampleState 0x401000 [0x402000]).shadow = 0x100028 := by decide
    rw [e] at h4
    rw [h4]; decide
  · rw [h5]; decide

end Verif
