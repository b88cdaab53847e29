import Verif.CheckLemmas
import Verif.Witness

/-!
C10, C11: the register frame used for leaf functions.  On entry the return address is
copied to a register the function does not use (whose old value goes to the scratch
word gs:8); on exit the copy is compared with the return address on the stack.
-/

namespace Verif

/-- The register chosen for the frame is the first unused one. -/
structure RegChoice (sm : JitSummary) (reg : Reg) : Prop where
  head : sm.unusedRegs.head? = some reg.name
  notSp : reg ≠ .rsp

theorem RegChoice.get {sm : JitSummary} {reg : Reg} (h : RegChoice sm reg) :
    getUnusedRegister sm = some (reg.name, reg) := by
  simp [getUnusedRegister, h.head, regOf_iff.2 ⟨h.notSp, rfl⟩]

/-- The exit code: compare, and on a mismatch search the shadow stack. -/
def regPopCode (reg t1 t2 : Reg) (t : Temps) (c1 : Code) : Code :=
  [.cmpMem reg .rsp 0, .je .success] ++ c1 ++ validateRa t1 t2 t ++
    restoreCode t1 t2 true true ++ [.bind .success, .loadGs reg 8]

theorem regPop_emitted {fl : JitFlags} (hf : Normal fl) {sm : JitSummary} {reg : Reg}
    (h : RegChoice sm reg) :
    ∃ t1 t2 t c1, jitRegisterPop fl sm = some (regPopCode reg t1 t2 t c1) ∧
      Shape c1 t 0 t1 t2 true true ∧ t1 ≠ reg ∧ t2 ≠ reg := by
  have two : ∃ n m, KnownName n ∧ KnownName m ∧ n ≠ m ∧ n ∉ [reg.name] ∧ m ∉ [reg.name] := by
    cases reg
    case r8 => exact ⟨_, _, ⟨.r9, by decide, rfl⟩, ⟨.rax, by decide, rfl⟩, by decide, by decide,
      by decide⟩
    case r9 => exact ⟨_, _, ⟨.r8, by decide, rfl⟩, ⟨.rax, by decide, rfl⟩, by decide, by decide,
      by decide⟩
    all_goals exact ⟨_, _, knownName_r8, knownName_r9, by decide, by decide, by decide⟩
  obtain ⟨n, m, hn, hm, hne, en, em⟩ := two
  obtain ⟨c1, t, r1, r2, he, hs, e1, e2⟩ := saveTemps_default (fl := fl) (dead := [])
    (ex := [reg.name]) (Or.inr rfl) hn hm hne en em 0
  refine ⟨r1, r2, t, c1, ?_, hs, ?_, ?_⟩
  · simp [jitRegisterPop, hf.notEmpty, hf.notSave, h.get, he, hs.tmp1, hs.tmp2, hs.restore,
      regPopCode]
  · rintro rfl; simp at e1
  · rintro rfl; simp at e2

/-- State after the comparison at the beginning of the exit code. -/
def cmpState (reg : Reg) (s : State) : State :=
  { s with flags := cmpFlags (s.regs reg) (s.mem.read64 (s.regs .rsp)) }

theorem cmpState_exec (reg : Reg) (s : State) :
    exec (.cmpMem reg .rsp 0) s = .next (cmpState reg s) := by
  simp [exec, State.ea, cmpState]

theorem cmpState_zf (reg : Reg) (s : State) :
    (cmpState reg s).zf = decide (s.regs reg = s.mem.read64 (s.regs .rsp)) := by
  simp only [State.zf, cmpState, cmpFlags_zf]

theorem loadGs_exec (reg : Reg) (s : State) :
    exec (.loadGs reg 8) s = .next (s.set reg (s.mem.read64 (s.gs + 8))) := by
  simp [exec, State.gsa]

/-- The exit code on an intact return address. -/
theorem regPop_equal {reg t1 t2 : Reg} {t : Temps} {c1 : Code} {off : Int}
    (hs : Shape c1 t off t1 t2 true true) {s : State}
    (h : s.mem.read64 (s.regs .rsp) = s.regs reg) :
    Exits (regPopCode reg t1 t2 t c1) s
      ((cmpState reg s).set reg (s.mem.read64 (s.gs + 8))) := by
  have ht : target .success (regPopCode reg t1 t2 t c1) = some [.loadGs reg 8] := by
    unfold regPopCode
    rw [target_append]
    · rfl
    · intro i hi
      simp only [List.mem_append] at hi
      rcases hi with ((hi | hi) | hi) | hi
      · simp at hi; rcases hi with rfl | rfl <;> rfl
      · rw [hs.code] at hi; exact saveCode_binds _ _ _ _ _ i hi
      · simp [validateRa] at hi
        rcases hi with rfl | rfl | rfl | rfl | rfl | rfl | rfl | rfl | rfl | rfl | rfl | rfl | rfl <;>
          rfl
      · simp [restoreCode] at hi; rcases hi with rfl | rfl <;> rfl
  refine ends_next (cmpState_exec reg s) (ends_goto (l := .success) (s' := cmpState reg s) ?_ ht
    (ends_next (loadGs_exec reg _) (ends_nil _ _)))
  simp [exec, cmpState_zf, h]

/-- The exit code on a changed return address: the shadow stack decides. -/
theorem regPop_differ {reg t1 t2 : Reg} {t : Temps} {c1 : Code}
    (hs : Shape c1 t 0 t1 t2 true true) {s : State} {l : List W}
    (h : s.mem.read64 (s.regs .rsp) ≠ s.regs reg) (hl : s.Holds l)
    (hsep : CheckSep (s.regs .rsp) 16 (l.length + 1) s) :
    match scan (s.mem.read64 (s.regs .rsp)) l with
    | some _ => ∃ s', Exits (regPopCode reg t1 t2 t c1) s s'
    | none => Traps (regPopCode reg t1 t2 t c1) s := by
  have hsep' : CheckSep ((cmpState reg s).regs .rsp + BitVec.ofInt 64 0) (nsave true true)
      (l.length + 1) (cmpState reg s) := by
    have e : (cmpState reg s).regs .rsp + BitVec.ofInt 64 0 = s.regs .rsp := by simp [cmpState]
    rw [e]
    exact ⟨hsep.ret_gs, hsep.ret_save, hsep.gs_save, hsep.ent_gs, hsep.ent_save⟩
  have hret : (cmpState reg s).mem.read64 ((cmpState reg s).regs .rsp + BitVec.ofInt 64 0) =
      s.mem.read64 (s.regs .rsp) := by simp [cmpState]
  have hent : ∀ i, (cmpState reg s).entry i = s.entry i := fun _ => rfl
  have hfall : ∀ o, Ends (regPopCode reg t1 t2 t c1)
      (c1 ++ validateRa t1 t2 t ++ restoreCode t1 t2 true true ++ [.bind .success, .loadGs reg 8])
      (cmpState reg s) o → Ends (regPopCode reg t1 t2 t c1) (regPopCode reg t1 t2 t c1) s o := by
    intro o ho
    have e : regPopCode reg t1 t2 t c1 = .cmpMem reg .rsp 0 :: .je .success ::
      (c1 ++ validateRa t1 t2 t ++ restoreCode t1 t2 true true ++
        [.bind .success, .loadGs reg 8]) := by simp [regPopCode]
    have : Ends (regPopCode reg t1 t2 t c1) (.cmpMem reg .rsp 0 :: .je .success ::
      (c1 ++ validateRa t1 t2 t ++ restoreCode t1 t2 true true ++
        [.bind .success, .loadGs reg 8])) s o := by
      refine ends_next (cmpState_exec reg s) (ends_next (s' := cmpState reg s) ?_ ho)
      simp [exec, cmpState_zf, h.symm]
    rw [← e] at this
    exact this
  have hpre : ∀ l i, i ∈ [Instr.cmpMem reg .rsp 0, .je .success] → i.binds l = false := by
    intro l i hi
    simp at hi
    rcases hi with rfl | rfl <;> rfl
  split
  · next n hn =>
    obtain ⟨a, b, c, d⟩ := scan_some hn
    obtain ⟨s', _, hx⟩ := exits_check (pre := [.cmpMem reg .rsp 0, .je .success])
      (post := [.bind .success, .loadGs reg 8]) hpre hs (cmpState reg s) n
      (hsep'.mono (by omega)) (by
        intro i hi
        rw [hret, hent, hl.entry (by omega), dif_pos (by omega)]
        exact b i hi (by omega)) (by
        rw [hret, hent, hl.entry a]
        split
        · next hlt => exact c hlt
        · next hlt => exact (d (by omega)).symm)
    exact ⟨_, hfall _ (hx _ (ends_next rfl (ends_next (loadGs_exec reg _) (ends_nil _ _))))⟩
  · next hn =>
    obtain ⟨n, a, b, c, d⟩ := scan_none hn
    have e : s.entry n ≠ s.mem.read64 (s.regs .rsp) ∧ GuardLike (s.entry n) := by
      rw [hl.entry a]
      split
      · next hlt => exact c hlt
      · next hlt => exact ⟨fun hc => d (by omega) hc.symm, guardLike_zero⟩
    obtain ⟨s', hx⟩ := traps_check (pre := [.cmpMem reg .rsp 0, .je .success])
      (post := [.bind .success, .loadGs reg 8]) hpre hs (cmpState reg s) n
      (hsep'.mono (by omega)) (by
        intro i hi
        rw [hret, hent, hl.entry (by omega), dif_pos (by omega)]
        exact b i hi (by omega)) (by rw [hret, hent]; exact e.1) (by rw [hent]; exact e.2)
    exact traps_iff.2 ⟨s', hfall _ hx⟩

theorem regPush_exits {fl : JitFlags} (hf : Normal fl) {sm : JitSummary} {reg : Reg}
    (h : RegChoice sm reg) (height : Int) :
    ∃ code, jitRegisterPush fl sm height = some code ∧ ∀ s : State,
      Sep (s.regs .rsp + BitVec.ofInt 64 height) 8 (s.gs + 8) 8 →
      Exits code s (State.set { s with mem := s.mem.write64 (s.gs + 8) (s.regs reg) } reg
        (s.mem.read64 (s.regs .rsp + BitVec.ofInt 64 height))) := by
  refine ⟨[.storeGs 8 reg, .load reg .rsp height], ?_, fun s hsep => ?_⟩
  · simp [jitRegisterPush, hf.notEmpty, hf.notSave, h.get]
  · refine ends_next (s' := { s with mem := s.mem.write64 (s.gs + 8) (s.regs reg) }) ?_
      (ends_next ?_ (ends_nil _ _))
    · simp [exec, State.gsa]
    · simp only [exec, State.ea]
      rw [read64_write64_sep _ _ _ _ hsep]

/-- C10.  Run the entry code in `s`; let the body go from there to any state `s2` which
still has the chosen register, the scratch word, the gs base and the return address, and
in which rsp designates the return address; then the exit code falls through and the
chosen register has the value it had in `s`.  Entry and exit change no memory but the
scratch word, so the shadow pointer and the shadow entries are those of `s2`; registers
other than the chosen one are those of `s` at the end of the entry and those of `s2` at
the end of the exit. -/
theorem C10_register_frame_round_trip {fl : JitFlags} (hf : Normal fl) {sm : JitSummary}
    {reg : Reg} (h : RegChoice sm reg) (height : Int) :
    ∃ cpush cpop, jitRegisterPush fl sm height = some cpush ∧ jitRegisterPop fl sm = some cpop ∧
      ∀ s : State, Sep (s.regs .rsp + BitVec.ofInt 64 height) 8 (s.gs + 8) 8 →
        ∃ s1, Exits cpush s s1 ∧ s1.flags = s.flags ∧
          SameExcept (fun r => r = reg) [(s.gs + 8, 8)] s s1 ∧
          ∀ s2 : State, s2.regs reg = s1.regs reg → s2.gs = s1.gs →
            s2.mem.read64 (s1.gs + 8) = s1.mem.read64 (s1.gs + 8) →
            s2.regs .rsp = s.regs .rsp + BitVec.ofInt 64 height →
            s2.mem.read64 (s2.regs .rsp) = s.mem.read64 (s2.regs .rsp) →
            ∃ s3, Exits cpop s2 s3 ∧ s3.regs reg = s.regs reg ∧ s3.mem = s2.mem ∧
              s3.shadow = s2.shadow ∧ SameExcept (fun r => r = reg) [] s2 s3 := by
  obtain ⟨cpush, hc, hx⟩ := regPush_exits hf h height
  obtain ⟨t1, t2, t, c1, hp, hs, _, _⟩ := regPop_emitted hf h
  refine ⟨cpush, _, hc, hp, fun s hsep => ⟨_, hx s hsep, rfl, ⟨?_, ?_, rfl, ?_⟩, ?_⟩⟩
  · simp [State.set, h.notSp.symm]
  · intro r hr; simp [State.set, hr]
  · intro x hx'
    exact write64_outRange _ _ _ _ (hx' (s.gs + 8, 8) (by simp))
  · intro s2 h1 h2 h3 h4 h5
    have hret : s2.mem.read64 (s2.regs .rsp) = s2.regs reg := by
      rw [h5, h1, h4]; simp [State.set]
    refine ⟨_, regPop_equal hs hret, ?_, rfl, rfl, ?_, ?_, rfl, fun _ _ => rfl⟩
    · have hg : s2.gs = s.gs := h2
      have e : (s2.mem.read64 (s2.gs + 8)) = s.regs reg := by
        rw [hg]
        refine h3.trans ?_
        exact read64_write64 _ _ _
      simp only [State.set, if_true]; exact e
    · simp [State.set, h.notSp.symm, cmpState]
    · intro r hr; simp [State.set, hr, cmpState]

/-- C11.  At the exit of a register-frame function, let `l` be the recorded return
addresses.  If the return address on the stack is neither the copy in the register, nor
zero, nor recorded, the exit code raises SIGILL and does not fall through. -/
theorem C11_register_frame_detects {fl : JitFlags} (hf : Normal fl) {sm : JitSummary}
    {reg : Reg} (h : RegChoice sm reg) :
    ∃ cpop, jitRegisterPop fl sm = some cpop ∧ ∀ (s : State) (l : List W), s.Holds l →
      CheckSep (s.regs .rsp) 16 (l.length + 1) s →
      s.mem.read64 (s.regs .rsp) ≠ s.regs reg →
      s.mem.read64 (s.regs .rsp) ≠ 0 → s.mem.read64 (s.regs .rsp) ∉ l →
      Traps cpop s ∧ ∀ s', ¬ Exits cpop s s' := by
  obtain ⟨t1, t2, t, c1, hp, hs, _, _⟩ := regPop_emitted hf h
  refine ⟨_, hp, fun s l hl hsep hne h0 hm => ?_⟩
  have := regPop_differ (reg := reg) hs hne hl hsep
  rw [scan_missing h0 hm] at this
  exact ⟨this, fun s' hx => hx.not_traps this⟩

/-- The exception in C11 is real: a recorded address (here: of any active caller whose
entry has no guard-like entry above it) is accepted in place of the function's own. -/
theorem C11_recorded_accepted {fl : JitFlags} (hf : Normal fl) {sm : JitSummary}
    {reg : Reg} (h : RegChoice sm reg) :
    ∃ cpop, jitRegisterPop fl sm = some cpop ∧ ∀ (s : State) (l : List W), s.Holds l →
      CheckSep (s.regs .rsp) 16 (l.length + 1) s →
      s.mem.read64 (s.regs .rsp) ≠ s.regs reg → (∀ v, v ∈ l → ¬ GuardLike v) →
      s.mem.read64 (s.regs .rsp) ∈ l → ∃ s', Exits cpop s s' := by
  obtain ⟨t1, t2, t, c1, hp, hs, _, _⟩ := regPop_emitted hf h
  refine ⟨_, hp, fun s l hl hsep hne hg hm => ?_⟩
  have := regPop_differ (reg := reg) hs hne hl hsep
  obtain ⟨pre, post, e, hpre⟩ := List.eq_append_cons_of_mem hm
  have e2 : scan (s.mem.read64 (s.regs .rsp)) l = some pre.length := by
    have hg' : ∀ v, v ∈ pre → ¬ GuardLike v :=
      fun v hv => hg v (by rw [e]; exact List.mem_append_left _ hv)
    rw [e]; exact scan_found hpre hg'
  rw [e2] at this
  exact this

/-! ## The hypotheses can be met -/

example : RegChoice { unusedRegs := ["x86_64::r10", "x86_64::r11"] } .r10 := ⟨rfl, by decide⟩

example : ∃ code, jitRegisterPop {} { unusedRegs := ["x86_64::r10"] } = some code ∧
    code = [.cmpMem .r10 .rsp 0, .je .success, .push .r11, .push .r12] ++
      validateRa .r11 .r12 ⟨none, none, none, true, true, true, 16⟩ ++
      [.pop .r12, .pop .r11, .bind .success, .loadGs .r10 8] := ⟨_, rfl, by decide⟩

/-- A tampered return address at the exit of a register-frame function. -/
example : ∃ code, jitRegisterPop {} { unusedRegs := ["x86_64::rax"] } = some code ∧
    Traps code (sampleState 0x404000 [0x402000, 0x401000]) := by
  obtain ⟨code, h1, h2⟩ := C11_register_frame_detects (fl := {}) ⟨by decide, by decide, rfl⟩
    (sm := { unusedRegs := ["x86_64::rax"] }) (reg := .rax) ⟨rfl, by decide⟩
  refine ⟨code, h1, (h2 _ [0x402000, 0x401000] ⟨by decide, by decide⟩ ?_ (by decide) (by decide)
    (by decide)).1⟩
  exact ⟨sep_of_le (by decide) (by decide) (by decide), sep_of_le (by decide) (by decide) (by decide),
    sep_of_le (by decide) (by decide) (by decide),
    fun i hi => sep_of_le (by decide) (by decide) (by revert i; decide),
    fun i hi => sep_of_le (by decide) (by decide) (by revert i; decide)⟩

end Verif
