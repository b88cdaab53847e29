import Verif.CheckLemmas
import Verif.Witness

/-!
C03, C04, C05, C07: the check which precedes a return.

`s.Holds l` says that the thread's shadow stack holds the entries `l`, topmost first.
`retOf` is the return address about to be used.
-/

namespace Verif

/-- The return address about to be used, for a check with this move descriptor. -/
def retOf (mid : Option MoveInst) (s : State) : W :=
  s.mem.read64 (s.regs .rsp + BitVec.ofInt 64 (popDisp mid))

/-- The areas used by the check do not overlap. -/
def CheckReady (fl : JitFlags) (sm : Option JitSummary) (mid : Option MoveInst) (addr : Nat)
    (l : List W) (s : State) : Prop :=
  CheckSep (s.regs .rsp + BitVec.ofInt 64 (popDisp mid)) (belowSp fl (deadExit sm addr) mid)
    (l.length + 1) s

variable {fl : JitFlags} {sm : Option JitSummary} {useOrig : Bool} {blockStart addr : Nat}
  {mid : Option MoveInst}

theorem jitStackPop_some (hf : Normal fl) (hm : popMove sm useOrig blockStart = some mid)
    {code : Code} (h : stackPopWith fl sm mid addr = some code) :
    jitStackPop fl sm useOrig blockStart addr = some code := by
  unfold jitStackPop
  rw [if_neg hf.notEmpty, hm]
  exact h

/-- The check code is emitted for all admissible inputs. -/
theorem check_emitted (hf : Normal fl) (hm : popMove sm useOrig blockStart = some mid)
    (hok : ScratchOk fl (deadExit sm addr) mid) :
    ∃ code, jitStackPop fl sm useOrig blockStart addr = some code := by
  obtain ⟨code, he, _⟩ := pop_scan hf hok
  exact ⟨code, jitStackPop_some hf hm he⟩

theorem check_scan (hf : Normal fl) (hm : popMove sm useOrig blockStart = some mid)
    (hok : ScratchOk fl (deadExit sm addr) mid) {code : Code}
    (hc : jitStackPop fl sm useOrig blockStart addr = some code) {s : State} {l : List W}
    (hl : s.Holds l) (hr : CheckReady fl sm mid addr l s) :
    match scan (retOf mid s) l with
    | some n => ∃ s', Exits code s s' ∧ Checked (ScratchFree fl (deadExit sm addr) mid)
        (belowSp fl (deadExit sm addr) mid) n s s'
    | none => Traps code s := by
  obtain ⟨code', he, hx⟩ := pop_scan hf hok
  have : code' = code := by
    rw [jitStackPop_some hf hm he] at hc
    exact Option.some.inj hc
  subst this
  exact hx s l hl hr

/-- C03.  If the return address is recorded and no entry above its topmost occurrence
looks like the guard, the check falls through; afterwards the shadow stack holds
exactly the entries below that occurrence. -/
theorem C03_check_accepts (hf : Normal fl) (hm : popMove sm useOrig blockStart = some mid)
    (hok : ScratchOk fl (deadExit sm addr) mid) {code : Code}
    (hc : jitStackPop fl sm useOrig blockStart addr = some code) {s : State} {pre post : List W}
    (hl : s.Holds (pre ++ retOf mid s :: post))
    (hr : CheckReady fl sm mid addr (pre ++ retOf mid s :: post) s)
    (htop : retOf mid s ∉ pre) (hg : ∀ v, v ∈ pre → ¬ GuardLike v) :
    ∃ s', Exits code s s' ∧ s'.Holds post ∧
      s'.shadow = s.shadow - BitVec.ofNat 64 (8 * (pre.length + 1)) := by
  have h := check_scan hf hm hok hc hl hr
  rw [scan_found htop hg] at h
  obtain ⟨s', h1, h2⟩ := h
  refine ⟨s', h1, ?_, h2.pointer⟩
  have := h2.holds hl hr (by simp)
  simpa using this

/-- C04.  If the return address is not zero and is not recorded, the check raises
SIGILL; it does not fall through. -/
theorem C04_check_traps (hf : Normal fl) (hm : popMove sm useOrig blockStart = some mid)
    (hok : ScratchOk fl (deadExit sm addr) mid) {code : Code}
    (hc : jitStackPop fl sm useOrig blockStart addr = some code) {s : State} {l : List W}
    (hl : s.Holds l) (hr : CheckReady fl sm mid addr l s)
    (h0 : retOf mid s ≠ 0) (h : retOf mid s ∉ l) :
    Traps code s ∧ ∀ s', ¬ Exits code s s' := by
  have ht := check_scan hf hm hok hc hl hr
  rw [scan_missing h0 h] at ht
  exact ⟨ht, fun s' hx => hx.not_traps ht⟩

/-- The excluded case of C04: a zero return address is accepted (it matches the guard)
although nothing recorded it. -/
theorem C04_zero_accepted (hf : Normal fl) (hm : popMove sm useOrig blockStart = some mid)
    (hok : ScratchOk fl (deadExit sm addr) mid) {code : Code}
    (hc : jitStackPop fl sm useOrig blockStart addr = some code) {s : State} {l : List W}
    (hl : s.Holds l) (hr : CheckReady fl sm mid addr l s)
    (h0 : retOf mid s = 0) (hg : ∀ v, v ∈ l → ¬ GuardLike v) :
    ∃ s', Exits code s s' := by
  have h := check_scan hf hm hok hc hl hr
  have e : scan (retOf mid s) l = some l.length := by rw [h0]; exact scan_zero hg
  rw [e] at h
  obtain ⟨s', h1, _⟩ := h
  exact ⟨s', h1⟩

/-- C05.  Whatever the shadow stack holds, if the check falls through then registers
not declared dead, rsp, the gs base and all memory outside the shadow pointer word and
the save area below rsp are as before.  (Flags may differ.) -/
theorem C05_check_transparent (hf : Normal fl) (hm : popMove sm useOrig blockStart = some mid)
    (hok : ScratchOk fl (deadExit sm addr) mid) {code : Code}
    (hc : jitStackPop fl sm useOrig blockStart addr = some code) {s s' : State} {l : List W}
    (hl : s.Holds l) (hr : CheckReady fl sm mid addr l s) (hx : Exits code s s') :
    s'.regs .rsp = s.regs .rsp ∧ s'.gs = s.gs ∧
      (∀ r, ¬ ScratchFree fl (deadExit sm addr) mid r → s'.regs r = s.regs r) ∧
      ∀ x, ¬ InRange x s.gs 8 →
        ¬ InRange x (s.regs .rsp - BitVec.ofNat 64 (belowSp fl (deadExit sm addr) mid))
          (belowSp fl (deadExit sm addr) mid) → s'.mem x = s.mem x := by
  have h := check_scan hf hm hok hc hl hr
  split at h
  · obtain ⟨s'', h1, h2⟩ := h
    have := h1.det hx
    subst this
    refine ⟨h2.same.rsp, h2.same.gs, h2.same.regs, fun x e1 e2 => h2.same.mem x ?_⟩
    intro p hp
    rcases List.mem_cons.1 hp with rfl | hp
    · exact e1
    rw [List.mem_singleton] at hp; subst hp
    exact e2
  · exact absurd h hx.not_traps

/-- C07 is false of the code: with an entry whose low half is zero above the return
address (left there by a longjmp over its frame), an honest return raises SIGILL. -/
theorem C07_guard_confusion (hf : Normal fl) (hm : popMove sm useOrig blockStart = some mid)
    (hok : ScratchOk fl (deadExit sm addr) mid) {code : Code}
    (hc : jitStackPop fl sm useOrig blockStart addr = some code) {s : State}
    {pre post : List W} {v : W} (hv : GuardLike v)
    (hl : s.Holds (pre ++ v :: post)) (hr : CheckReady fl sm mid addr (pre ++ v :: post) s)
    (hne : v ≠ retOf mid s) (htop : retOf mid s ∉ pre) : Traps code s := by
  have h := check_scan hf hm hok hc hl hr
  rw [scan_guard htop hv hne] at h
  exact h

/-- What holds of C07: entries with non-zero low halves are never taken for the guard,
so a recorded return address is accepted however many such entries lie above it. -/
theorem C07_guard_distinguished_partial (hf : Normal fl)
    (hm : popMove sm useOrig blockStart = some mid)
    (hok : ScratchOk fl (deadExit sm addr) mid) {code : Code}
    (hc : jitStackPop fl sm useOrig blockStart addr = some code) {s : State} {l : List W}
    (hl : s.Holds l) (hr : CheckReady fl sm mid addr l s)
    (hg : ∀ v, v ∈ l → ¬ GuardLike v) (hmem : retOf mid s ∈ l) :
    ∃ s', Exits code s s' := by
  obtain ⟨pre, post, e, hpre⟩ := List.eq_append_cons_of_mem hmem
  have h := C03_check_accepts hf hm hok hc (e ▸ hl) (e ▸ hr) hpre
    (fun v hv => hg v (by rw [e]; exact List.mem_append_left _ hv))
  obtain ⟨s', h1, _⟩ := h
  exact ⟨s', h1⟩

/-! ## The hypotheses can be met -/

theorem sample_holds : (sampleState 0x401000 [0x402000, 0x401000, 0x403000]).Holds
    [0x402000, 0x401000, 0x403000] where
  entries := by decide
  guard := by decide

theorem sample_ready : CheckReady {} none none 0 [0x402000, 0x401000, 0x403000]
    (sampleState 0x401000 [0x402000, 0x401000, 0x403000]) where
  ret_gs := sep_of_le (by decide) (by decide) (by decide)
  ret_save := sep_of_le (by decide) (by decide) (by decide)
  gs_save := sep_of_le (by decide) (by decide) (by decide)
  ent_gs := fun i hi => sep_of_le (by decide) (by decide) (by revert i; decide)
  ent_save := fun i hi => sep_of_le (by decide) (by decide) (by revert i; decide)

theorem sample_ret :
    retOf none (sampleState 0x401000 [0x402000, 0x401000, 0x403000]) = 0x401000 := by decide

theorem sample_normal : Normal {} := ⟨by decide, by decide, rfl⟩

theorem sample_ok : ScratchOk {} (deadExit none 0) none := ⟨by simp, by simp⟩

/-- C03 on a concrete state: one stale entry above the match. -/
example : ∃ code s', jitStackPop {} none false 0 0 = some code ∧
    Exits code (sampleState 0x401000 [0x402000, 0x401000, 0x403000]) s' ∧
    s'.Holds [0x403000] := by
  obtain ⟨code, hc⟩ := check_emitted (useOrig := false) (blockStart := 0) sample_normal rfl sample_ok
  obtain ⟨s', h1, h2, _⟩ := C03_check_accepts (pre := [0x402000]) (post := [0x403000])
    sample_normal rfl sample_ok hc (by rw [sample_ret]; exact sample_holds)
    (by rw [sample_ret]; exact sample_ready) (by rw [sample_ret]; decide)
    (by intro v hv; rw [List.mem_singleton] at hv; subst hv; decide)
  exact ⟨code, s', hc, h1, h2⟩

theorem sample_holds' : (sampleState 0x404000 [0x402000, 0x401000, 0x403000]).Holds
    [0x402000, 0x401000, 0x403000] where
  entries := by decide
  guard := by decide

theorem sample_ready' : CheckReady {} none none 0 [0x402000, 0x401000, 0x403000]
    (sampleState 0x404000 [0x402000, 0x401000, 0x403000]) where
  ret_gs := sep_of_le (by decide) (by decide) (by decide)
  ret_save := sep_of_le (by decide) (by decide) (by decide)
  gs_save := sep_of_le (by decide) (by decide) (by decide)
  ent_gs := fun i hi => sep_of_le (by decide) (by decide) (by revert i; decide)
  ent_save := fun i hi => sep_of_le (by decide) (by decide) (by revert i; decide)

/-- C04 on a concrete state: the return address was overwritten with 0x404000. -/
example : ∃ code, jitStackPop {} none false 0 0 = some code ∧
    Traps code (sampleState 0x404000 [0x402000, 0x401000, 0x403000]) := by
  obtain ⟨code, hc⟩ := check_emitted (useOrig := false) (blockStart := 0) sample_normal rfl sample_ok
  exact ⟨code, hc, (C04_check_traps sample_normal rfl sample_ok hc sample_holds' sample_ready'
    (by decide) (by decide)).1⟩

theorem sample_holds_low : (sampleState 0x401000 [0x500000000, 0x401000]).Holds
    [0x500000000, 0x401000] where
  entries := by decide
  guard := by decide

theorem sample_ready_low : CheckReady {} none none 0 [0x500000000, 0x401000]
    (sampleState 0x401000 [0x500000000, 0x401000]) where
  ret_gs := sep_of_le (by decide) (by decide) (by decide)
  ret_save := sep_of_le (by decide) (by decide) (by decide)
  gs_save := sep_of_le (by decide) (by decide) (by decide)
  ent_gs := fun i hi => sep_of_le (by decide) (by decide) (by revert i; decide)
  ent_save := fun i hi => sep_of_le (by decide) (by decide) (by revert i; decide)

/-- C07, negation with a witness: the return address is recorded, right below an entry
left by an abandoned frame, and the check nevertheless raises SIGILL. -/
theorem C07_recorded_but_traps : ∃ (code : Code) (s : State) (l : List W),
    jitStackPop {} none false 0 0 = some code ∧ s.Holds l ∧ CheckReady {} none none 0 l s ∧
      retOf none s ∈ l ∧ Traps code s := by
  obtain ⟨code, hc⟩ := check_emitted (useOrig := false) (blockStart := 0) sample_normal rfl sample_ok
  exact ⟨code, _, _, hc, sample_holds_low, sample_ready_low, by decide,
    C07_guard_confusion (pre := []) sample_normal rfl sample_ok hc (by decide) sample_holds_low
      sample_ready_low (by decide) (by decide)⟩

end Verif
