import Verif.Props.Push
import Verif.Props.Check

/-!
C09, C12, C13: choice of scratch registers and the dry-run modes.
-/

namespace Verif

/-- C13, default choice.  If at least two registers other than rsp are not excluded, the
constructor picks two distinct registers, neither rsp nor excluded. -/
theorem C13_default_scratch_distinct {ex : List String} {n m : String} (hn : KnownName n)
    (hm : KnownName m) (hne : n ≠ m) (hen : n ∉ ex) (hem : m ∉ ex) (height : Int) :
    ∃ r1 r2, (Temps.ofExclude ex height).tmp1 = some r1 ∧
      (Temps.ofExclude ex height).tmp2 = some r2 ∧
      r1 ≠ r2 ∧ r1 ≠ .rsp ∧ r2 ≠ .rsp ∧ r1.name ∉ ex ∧ r2.name ∉ ex := by
  obtain ⟨r1, r2, h, h'⟩ := ofExclude_two hn hm hne hen hem height
  exact ⟨r1, r2, by rw [h], by rw [h], h'⟩

/-- C13, move descriptors.  The first scratch register is the one named; the second one
is different from it, is not rsp, and is the one named second if two are named. -/
theorem C13_move_scratch_distinct {mid : MoveInst} (h1 : KnownName mid.reg1)
    (h2 : mid.saveCount = 2 → KnownName mid.reg2 ∧ mid.reg1 ≠ mid.reg2) (height : Int) :
    ∃ r1 r2, (Temps.ofMove mid height).tmp1 = some r1 ∧ (Temps.ofMove mid height).tmp2 = some r2 ∧
      r1.name = mid.reg1 ∧ r1 ≠ r2 ∧ r1 ≠ .rsp ∧ r2 ≠ .rsp ∧
      (mid.saveCount = 2 → r2.name = mid.reg2) := by
  obtain ⟨r1, e1⟩ := regOf_known h1
  by_cases hc : mid.saveCount = 2
  · obtain ⟨h2, hne⟩ := h2 hc
    obtain ⟨r2, e2⟩ := regOf_known h2
    exact ⟨r1, r2, e1, by simp [Temps.ofMove, hc, e2], (regOf_iff.1 e1).2, regOf_ne e1 e2 hne,
      (regOf_iff.1 e1).1, (regOf_iff.1 e2).1, fun _ => (regOf_iff.1 e2).2⟩
  · by_cases hr : "x86_64::r10" = mid.reg1
    · refine ⟨r1, .r11, e1, by simp [Temps.ofMove, hc, ← hr, regMap], (regOf_iff.1 e1).2, ?_,
        (regOf_iff.1 e1).1, by decide, fun h => absurd h hc⟩
      rintro rfl
      have := (regOf_iff.1 e1).2
      rw [← hr] at this
      exact absurd this (by decide)
    · refine ⟨r1, .r10, e1, by simp [Temps.ofMove, hc, hr, regMap], (regOf_iff.1 e1).2, ?_,
        (regOf_iff.1 e1).1, by decide, fun h => absurd h hc⟩
      rintro rfl
      exact hr (regOf_iff.1 e1).2

/-- Excluding thirteen registers leaves two. -/
example : ∃ r1 r2, (Temps.ofExclude ["x86_64::r10", "x86_64::r11", "x86_64::r12", "x86_64::r13",
    "x86_64::r14", "x86_64::r15", "x86_64::r8", "x86_64::r9", "x86_64::rax", "x86_64::rbp",
    "x86_64::rbx", "x86_64::rcx", "x86_64::rdi"] 0).tmp1 = some r1 ∧ (Temps.ofExclude
    ["x86_64::r10", "x86_64::r11", "x86_64::r12", "x86_64::r13",
    "x86_64::r14", "x86_64::r15", "x86_64::r8", "x86_64::r9", "x86_64::rax", "x86_64::rbp",
    "x86_64::rbx", "x86_64::rcx", "x86_64::rdi"] 0).tmp2 = some r2 ∧ r1 ≠ r2 := by
  refine ⟨.rdx, .rsi, by decide, by decide, by decide⟩

/-- C09 is false of the code: with one, two or three dead registers the selection
dereferences the end iterator. -/
theorem C09_small_dead_sets_undefined {fl : JitFlags} (h : fl.optimizeRegs = true)
    {dead : List String} (h1 : 1 ≤ dead.length) (h3 : dead.length ≤ 3) (ex : List String)
    (height : Int) : saveTemps fl dead ex height = none := by
  match dead, h1, h3 with
  | [a], _, _ => simp [saveTemps, h, derefNext]
  | [a, b], _, _ =>
    simp only [saveTemps, h, derefNext]
    cases saveOrSkip1 (Temps.ofExclude ex height) b <;> simp
  | [a, b, c], _, _ =>
    simp only [saveTemps, h, derefNext]
    cases saveOrSkip1 (Temps.ofExclude ex height) b with
    | none => simp
    | some p =>
      obtain ⟨c1, t⟩ := p
      cases saveOrSkip2 t c <;> simp

/-- C09, what holds: with no dead register or at least four, the push is emitted, falls
through, and leaves every register that is not in the dead set, and rsp, as before. -/
theorem C09_scratch_selection_partial {fl : JitFlags} (hf : Normal fl)
    (sm : JitSummary) (hd : sm.deadAtEntry = [] ∨ 4 ≤ sm.deadAtEntry.length)
    (hnd : sm.deadAtEntry.Nodup) (hk : ∀ n, n ∈ sm.deadAtEntry → KnownName n) (height : Int)
    (blockStart trgStart : Nat) :
    ∃ code, jitStackPush fl (some sm) false height false blockStart trgStart = some code ∧
      ∀ s : State, PushSep (s.regs .rsp + BitVec.ofInt 64 height) (belowSp fl sm.deadAtEntry none) s →
        ∃ s', Exits code s s' ∧ s'.regs .rsp = s.regs .rsp ∧
          ∀ r : Reg, r.name ∉ sm.deadAtEntry → s'.regs r = s.regs r := by
  have hok : ScratchOk fl (deadEntry (some sm)) none := by
    refine ⟨by simp, fun _ _ hne => ?_⟩
    rcases hd with hd | hd
    · exact absurd hd hne
    · exact ⟨hd, hnd, hk⟩
  obtain ⟨code, hc, hx⟩ := C01_push_records hf (some sm) false false height blockStart trgStart none
    rfl hok
  refine ⟨code, hc, fun s hsep => ?_⟩
  obtain ⟨s', h1, _⟩ := hx s hsep
  obtain ⟨_, h2⟩ := C02_push_transparent hf (some sm) false false height blockStart trgStart none
    rfl hok code hc s hsep
  obtain ⟨h3, _, _, h4, _⟩ := h2 s' h1
  exact ⟨s', h1, h3, fun r hr => h4 r fun hc => hr hc.2⟩

example : saveTemps { optimizeRegs := true } ["x86_64::rdi"] [] 0 = none :=
  C09_small_dead_sets_undefined rfl (by decide) (by decide) [] 0

/-- C09, for every dead set for which registers are chosen at all, whatever names are in it: exactly
the scratch registers that are marked as saved are saved, and the others are in the dead set. -/
theorem C09_saves {fl : JitFlags} {dead : List String} {h : Int} {c : Code} {t : Temps}
    (e : saveTemps fl dead [] h = some (c, t)) :
    ∃ r1 r2, t.tmp1 = some r1 ∧ t.tmp2 = some r2 ∧
      c = (if t.saved1 then [.push r1] else []) ++ (if t.saved2 then [.push r2] else []) ∧
      t.spOffset = h + 8 * c.length ∧ (t.saved1 = false → r1.name ∈ dead) ∧
      (t.saved2 = false → r2.name ∈ dead) := by
  have h0 : Temps.ofExclude [] h =
      { tmp1 := some .r10, tmp2 := some .r11, tmp3 := none, saved1 := true, saved2 := true, saved3 := true, spOffset := h } := rfl
  unfold saveTemps at e
  rw [h0] at e
  by_cases ho : ((fl.optimizeRegs && dead.isEmpty) || !fl.optimizeRegs) = true
  · simp only [if_pos ho, save, Option.map_some] at e
    cases e
    exact ⟨.r10, .r11, rfl, rfl, rfl, by simp; omega, by simp, by simp⟩
  · simp only [if_neg ho, Option.bind_eq_bind, Option.bind_eq_some_iff] at e
    obtain ⟨n1, m1, ⟨a1, t1⟩, e1, n2, m2, ⟨a2, t2⟩, e2, n3, m3, ⟨a3, t3⟩, e3, e4⟩ := e
    have hin : ∀ {n p}, derefNext dead p = some n → n ∈ dead := by
      intro n p hn
      unfold derefNext at hn
      split at hn
      · cases hn
      · exact List.mem_of_getElem? hn
    cases e4
    unfold saveOrSkip1 at e1
    unfold saveOrSkip2 at e2
    unfold saveOrSkip3 at e3
    cases h3 : regOf n3 with
    | none =>
      rw [h3] at e3
      cases h1 : regOf n1 <;> rw [h1] at e1 <;> cases e1 <;>
        cases h2 : regOf n2 <;> rw [h2] at e2 <;> cases e2 <;> cases e3
    | some r3 =>
      rw [h3] at e3
      cases h1 : regOf n1 with
      | none =>
        rw [h1] at e1; cases e1
        cases h2 : regOf n2 with
        | none =>
          rw [h2] at e2; cases e2; cases e3
          exact ⟨.r10, .r11, rfl, rfl, rfl, by simp; omega, by simp, by simp⟩
        | some r2 =>
          rw [h2] at e2; cases e2; cases e3
          exact ⟨.r10, r2, rfl, rfl, rfl, by simp, by simp, fun _ => by rw [(regOf_iff.1 h2).2]; exact hin m2⟩
      | some r1 =>
        rw [h1] at e1; cases e1
        cases h2 : regOf n2 with
        | none =>
          rw [h2] at e2; cases e2; cases e3
          exact ⟨r1, .r11, rfl, rfl, rfl, by simp, fun _ => by rw [(regOf_iff.1 h1).2]; exact hin m1, by simp⟩
        | some r2 =>
          rw [h2] at e2; cases e2; cases e3
          exact ⟨r1, r2, rfl, rfl, rfl, by simp, fun _ => by rw [(regOf_iff.1 h1).2]; exact hin m1,
            fun _ => by rw [(regOf_iff.1 h2).2]; exact hin m2⟩

deriving instance DecidableEq for Temps

/-- Names which the tool does not know are skipped; the second scratch register is then saved. -/
example : ∃ t, saveTemps { optimizeRegs := true } ["x86_64::r10", "x86_64::rcx", "x86_64::rip", "x86_64::rsi"] [] 0 =
    some ([.push .r11], t) ∧ t.tmp1 = some .rcx ∧ t.tmp2 = some .r11 :=
  ⟨⟨some .rcx, some .r11, some .rsi, false, true, false, 8⟩, by decide +kernel, rfl, rfl⟩

/-- C09 is false for names which the tool does not know: both scratch registers may be the same. -/
theorem C09_refuted_unknown_name : ∃ dead c t, 4 ≤ dead.length ∧ dead.Nodup ∧
    saveTemps { optimizeRegs := true } dead [] 0 = some (c, t) ∧ t.tmp1 = t.tmp2 :=
  ⟨["x86_64::cf", "x86_64::flags", "x86_64::r10", "x86_64::rdi"], [.push .r10],
    ⟨some .r10, some .r10, some .rdi, true, false, false, 8⟩, by decide, by decide +kernel, by decide +kernel, rfl⟩

/-! ## Dry-run modes -/

/-- C12, `--dry_run=empty`: no code at all. -/
theorem C12_empty_emits_nothing {fl : JitFlags} (h : fl.dryRun = "empty") :
    (∀ sm uo ht uf b t, jitStackPush fl sm uo ht uf b t = some []) ∧
    (∀ sm uo b a, jitStackPop fl sm uo b a = some []) ∧
    (∀ sm ht, jitRegisterPush fl sm ht = some []) ∧
    (∀ sm, jitRegisterPop fl sm = some []) := by
  simp [jitStackPush, jitStackPop, jitRegisterPush, jitRegisterPop, h]

theorem exits_save_only {c1 : Code} {t : Temps} {off0 : Int} {t1 t2 : Reg} {b1 b2 : Bool}
    (h : Shape c1 t off0 t1 t2 b1 b2) (s : State) :
    ∃ s', Exits (c1 ++ restoreCode t1 t2 b1 b2) s s' ∧ s'.flags = s.flags ∧
      SameExcept (fun _ => False)
        [(s.regs .rsp - BitVec.ofNat 64 (nsave b1 b2), nsave b1 b2)] s s' := by
  generalize hw : c1 ++ restoreCode t1 t2 b1 b2 = w
  obtain ⟨s1, hs, e1⟩ := ends_save w (restoreCode t1 t2 b1 b2 ++ []) t1 t2 b1 b2 s h.rsp2
  obtain ⟨s3, hr, e3⟩ := ends_restore w [] t1 t2 b1 b2 s1 h.rsp1 h.rsp2 h.ne
  have hf := ends_frame (areas := []) hs hr h.rsp1 h.rsp2 (fun _ _ _ => rfl) rfl
    (fun _ _ => rfl) (by simp)
  refine ⟨s3, ?_, by rw [hr.flags, hs.flags], hf.rsp, fun r _ => ?_, hf.gs, hf.mem⟩
  · rw [exits_iff, ← hw, h.code]
    have := e1 _ (e3 _ (ends_nil w s3))
    rw [← hw, h.code] at this
    simpa using this
  · by_cases h1 : r = t1 ∧ b1 = false
    · obtain ⟨rfl, rfl⟩ := h1
      rw [hr.tmp1, if_neg (by decide), hs.regs _ h.rsp1]
    by_cases h2 : r = t2 ∧ b2 = false
    · obtain ⟨rfl, rfl⟩ := h2
      rw [hr.tmp2, if_neg (by decide), hs.regs _ h.rsp2]
    exact hf.regs r fun hc => hc.elim h1 h2

/-- C12, `--dry_run=only-save`, push: in every state the code falls through with all
registers, flags and memory as before, except the save area below rsp. -/
theorem C12_only_save_push {fl : JitFlags} (h : fl.dryRun = "only-save")
    (sm : Option JitSummary) (useOrig useFixed : Bool) (height : Int) (blockStart trgStart : Nat)
    (mid : Option MoveInst) (hm : pushMove sm useOrig useFixed blockStart trgStart = some mid)
    (hok : ScratchOk fl (deadEntry sm) mid) :
    ∃ code, jitStackPush fl sm useOrig height useFixed blockStart trgStart = some code ∧
      ∀ s : State, ∃ s', Exits code s s' ∧ ¬ Traps code s ∧ s'.flags = s.flags ∧
        SameExcept (fun _ => False)
          [(s.regs .rsp - BitVec.ofNat 64 (belowSp fl (deadEntry sm) mid),
            belowSp fl (deadEntry sm) mid)] s s' := by
  obtain ⟨c1, t, t1, t2, b1, b2, he, hs, hn, _⟩ := (chosen_push hok height).out
  refine ⟨c1 ++ restoreCode t1 t2 b1 b2, ?_, fun s => ?_⟩
  · simp [jitStackPush, stackPushWith, hm, he, body, hs.tmp1, hs.tmp2, h, hs.restore]
  · rw [← hn]
    obtain ⟨s', h1, h2, h3⟩ := exits_save_only hs s
    exact ⟨s', h1, h1.not_traps, h2, h3⟩

/-- C12, `--dry_run=only-save`, check. -/
theorem C12_only_save_pop {fl : JitFlags} (h : fl.dryRun = "only-save")
    (sm : Option JitSummary) (useOrig : Bool) (blockStart addr : Nat)
    (mid : Option MoveInst) (hm : popMove sm useOrig blockStart = some mid)
    (hok : ScratchOk fl (deadExit sm addr) mid) :
    ∃ code, jitStackPop fl sm useOrig blockStart addr = some code ∧
      ∀ s : State, ∃ s', Exits code s s' ∧ ¬ Traps code s ∧ s'.flags = s.flags ∧
        SameExcept (fun _ => False)
          [(s.regs .rsp - BitVec.ofNat 64 (belowSp fl (deadExit sm addr) mid),
            belowSp fl (deadExit sm addr) mid)] s s' := by
  obtain ⟨c1, t, t1, t2, b1, b2, he, hs, hn, _⟩ := (chosen_pop hok).out
  refine ⟨c1 ++ restoreCode t1 t2 b1 b2, ?_, fun s => ?_⟩
  · simp [jitStackPop, stackPopWith, hm, he, body, hs.tmp1, hs.tmp2, h, hs.restore]
  · rw [← hn]
    obtain ⟨s', h1, h2, h3⟩ := exits_save_only hs s
    exact ⟨s', h1, h1.not_traps, h2, h3⟩

/-- C12, `--dry_run=only-save`, register snippets: the entry only writes the scratch
word, the exit only reloads the register from it. -/
theorem C12_only_save_register {fl : JitFlags} (h : fl.dryRun = "only-save") (sm : JitSummary)
    {name : String} {reg : Reg} (hu : sm.unusedRegs.head? = some name) (hr : reg ≠ .rsp)
    (hname : reg.name = name) (height : Int) :
    ∃ cpush cpop, jitRegisterPush fl sm height = some cpush ∧ jitRegisterPop fl sm = some cpop ∧
      (∀ s : State, ∃ s', Exits cpush s s' ∧ s'.flags = s.flags ∧
        s'.mem.read64 (s.gs + 8) = s.regs reg ∧
        SameExcept (fun _ => False) [(s.gs + 8, 8)] s s') ∧
      (∀ s : State, ∃ s', Exits cpop s s' ∧ s'.flags = s.flags ∧
        s'.regs reg = s.mem.read64 (s.gs + 8) ∧
        SameExcept (fun r => r = reg) [] s s') := by
  have hro : regOf name = some reg := regOf_iff.2 ⟨hr, hname⟩
  have e8 : BitVec.ofInt 64 8 = (8 : W) := rfl
  refine ⟨[.storeGs 8 reg], [.loadGs reg 8], ?_, ?_, fun s => ?_, fun s => ?_⟩
  · simp [jitRegisterPush, h, getUnusedRegister, hu, hro]
  · simp [jitRegisterPop, h, getUnusedRegister, hu, hro]
  · refine ⟨{ s with mem := s.mem.write64 (s.gs + 8) (s.regs reg) },
      ends_next (by simp only [exec, State.gsa, e8]) (ends_nil _ _), rfl, ?_, rfl, fun _ _ => rfl,
      rfl, fun x hx => ?_⟩
    · exact read64_write64 _ _ _
    · exact write64_outRange _ _ _ _ (hx (s.gs + 8, 8) (by simp))
  · refine ⟨s.set reg (s.mem.read64 (s.gs + 8)),
      ends_next (by simp only [exec, State.gsa, e8]) (ends_nil _ _), rfl, ?_, ?_, ?_, rfl,
      fun _ _ => rfl⟩
    · simp [State.set]
    · simp [State.set, hr.symm]
    · intro r hr'; simp [State.set, hr']

end Verif
