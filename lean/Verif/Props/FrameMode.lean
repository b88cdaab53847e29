import Verif.FrameLemmas
import Verif.Witness

/-!
C08: `--validate_frame`.  Entries are pairs (return address, frame address) of two words.
-/

namespace Verif

/-- The shadow stack holds the pairs `l` (return address, frame), topmost first, above
two zero guard words. -/
structure State.HoldsFrames (s : State) (l : List (W × W)) : Prop where
  addr : ∀ i (h : i < l.length), s.entry (2 * i + 1) = l[i].1
  frame : ∀ i (h : i < l.length), s.entry (2 * i) = l[i].2
  guard0 : s.entry (2 * l.length) = 0
  guard1 : s.entry (2 * l.length + 1) = 0

theorem hasFrameLoop {pre post : Code} {sp ra : Reg} {t : Temps}
    (h : ∀ l i, i ∈ pre → i.binds l = false) :
    HasFrameLoop (pre ++ (validateRaAndFrame sp ra t ++ post)) sp ra t.spOffset post where
  loop := by rw [target_append (h _)]; rfl
  unwind := by rw [target_append (h _)]; rfl
  error := by rw [target_append (h _)]; rfl

/-- The frame check raises SIGILL whenever no recorded frame is the address eight bytes
below the return address. -/
theorem frame_check_traps {c1 : Code} {t : Temps} {off0 : Int} {t1 t2 : Reg} {b1 b2 : Bool}
    (h : Shape c1 t off0 t1 t2 b1 b2) (s : State) (l : List (W × W)) (hl : s.HoldsFrames l)
    (hsep : CheckSep (s.regs .rsp + BitVec.ofInt 64 off0) (nsave b1 b2 + 8) (2 * l.length + 2) s)
    (hf : ∀ p, p ∈ l → p.2 ≠ s.regs .rsp + BitVec.ofInt 64 off0 - 8)
    (h0 : s.regs .rsp + BitVec.ofInt 64 off0 ≠ 8) :
    Traps (c1 ++ validateRaAndFrame t1 t2 t ++ restoreCode t1 t2 b1 b2) s := by
  generalize hw : c1 ++ validateRaAndFrame t1 t2 t ++ restoreCode t1 t2 b1 b2 = w
  have hloop : HasFrameLoop w t1 t2 t.spOffset (restoreCode t1 t2 b1 b2) := by
    rw [← hw, List.append_assoc]
    refine hasFrameLoop fun l i hi => ?_
    rw [h.code] at hi; exact saveCode_binds _ _ _ _ l i hi
  obtain ⟨s1, hs, e1⟩ := ends_save w (validateRaAndFrame t1 t2 t ++ restoreCode t1 t2 b1 b2)
    t1 t2 b1 b2 s h.rsp2
  let s2 := s1.pushW s1.flags
  let s3 := s2.set t1 (s2.mem.read64 s2.gs)
  -- saving touches only the area below rsp
  have hmem : ∀ x, ¬ InRange x (s.regs .rsp - BitVec.ofNat 64 (nsave b1 b2 + 8)) (nsave b1 b2 + 8) →
      s2.mem x = s.mem x := by
    intro x hx
    have e : s1.regs .rsp - 8 = s.regs .rsp - BitVec.ofNat 64 (nsave b1 b2 + 8) := by
      rw [hs.rsp]; bv_omega
    show s1.mem.write64 (s1.regs .rsp - 8) s1.flags x = s.mem x
    rw [e, write64_outRange, hs.mem]
    · intro hc; apply hx
      refine inRange_sub hc ?_
      have : s.regs .rsp - BitVec.ofNat 64 (nsave b1 b2) -
        (s.regs .rsp - BitVec.ofNat 64 (nsave b1 b2 + 8)) = 8#64 := by bv_omega
      rw [this, show (8#64).toNat = 8 from rfl]; omega
    · intro hc; apply hx
      refine inRange_sub hc ?_
      rw [BitVec.sub_self]; show 0 + 8 ≤ _; omega
  have hg : s2.gs = s.gs := hs.gs
  have hsh : s2.mem.read64 s2.gs = s.shadow := by
    rw [hg]; exact read64_of_sep hmem hsep.gs_save
  have hent : ∀ i, i < 2 * l.length + 2 →
      s2.mem.read64 (s.shadow - BitVec.ofNat 64 (8 * (i + 1))) = s.entry i :=
    fun i hi => read64_of_sep hmem (hsep.ent_save i hi)
  have eF : ∀ i, s.shadow - BitVec.ofNat 64 (16 * i + 8) =
      s.shadow - BitVec.ofNat 64 (8 * (2 * i + 1)) := by intro i; congr 2; omega
  have eA : ∀ i, s.shadow - BitVec.ofNat 64 (16 * i + 16) =
      s.shadow - BitVec.ofNat 64 (8 * (2 * i + 1 + 1)) := by intro i; congr 2; omega
  obtain ⟨n, hn, hp, hlt⟩ := exists_first (fun i => GuardLike (s.entry (2 * i + 1))) l.length
    (by rw [hl.guard1]; exact guardLike_zero)
  have hyp : FrameHyp t1 t.spOffset s.gs (s.regs .rsp + BitVec.ofInt 64 off0 - 8) s.shadow n s3 := by
    refine ⟨hg, ?_, ?_, ?_, ?_, ?_, ?_, ?_⟩
    · simp only [s3, State.set, if_true, hsh]
    · have : s3.regs .rsp = s.regs .rsp - BitVec.ofNat 64 (nsave b1 b2 + 8) := by
        simp only [s3, s2, State.set, State.pushW, h.rsp1.symm, if_true, if_false, hs.rsp]
        bv_omega
      rw [this, h.off]
      have := ret_addr (s.regs .rsp) off0 (nsave b1 b2)
      rw [← this]
      bv_omega
    · intro i hi
      show s2.mem.read64 _ ≠ _
      rw [eF, hent _ (by omega)]
      by_cases hl' : i < l.length
      · rw [hl.frame i hl']; exact hf _ (List.getElem_mem hl')
      · have : i = l.length := by omega
        subst this
        rw [hl.guard0]
        intro hc; apply h0
        bv_omega
    · intro i hi; rw [eF]; exact hsep.ent_gs _ (by omega)
    · intro i hi; rw [eA]; exact hsep.ent_gs _ (by omega)
    · intro i hi
      show ¬ GuardLike (s2.mem.read64 _)
      rw [eA, hent _ (by omega)]; exact hlt i hi
    · show GuardLike (s2.mem.read64 _)
      rw [eA, hent _ (by omega)]; exact hp
  obtain ⟨s', hs'⟩ := ends_frame_trap hloop h.ne h.rsp2 h.rsp1 n _ _ hyp
  refine traps_iff.2 ⟨s', ?_⟩
  have := e1 (.trap s') (ends_next (s' := s2) rfl (ends_next (s' := s3) (by
    simp [exec, State.gsa, s3]) (ends_next rfl hs')))
  rw [← h.code, ← List.append_assoc, hw] at this
  exact this

/-- Frame mode outside the dry-run modes. -/
structure FrameMode (fl : JitFlags) : Prop where
  notEmpty : fl.dryRun ≠ "empty"
  notSave : fl.dryRun ≠ "only-save"
  frame : fl.validateFrame = true

/-- Areas used by a frame push. -/
structure FramePushSep (s : State) : Prop where
  slot_gs : Sep s.shadow 16 s.gs 8
  slot_save : Sep s.shadow 16 (s.regs .rsp - 24) 24
  gs_save : Sep s.gs 8 (s.regs .rsp - 24) 24

/-! ### Arithmetic helpers -/

theorem sub_sub_sub (x a b : W) : (x - a) - (x - b) = b - a := by bv_omega
theorem add_sub_self (x a : W) : x + a - x = a := by bv_omega
theorem self_sub_add (x a : W) : x - (x + a) = -a := by bv_omega
theorem sub_add_sub (x a b : W) : x - a + b = x - (a - b) := by bv_omega

/-- What the core of the frame push does: `s1` is the state after the scratch registers
are saved, `g` the base of the thread area and `P` the shadow stack pointer. -/
structure AfterFrameCore (t1 t2 : Reg) (g P v R : W) (s1 s2 : State) : Prop where
  regs : ∀ r, r ≠ t1 → r ≠ t2 → s2.regs r = s1.regs r
  flags : s2.flags = s1.flags
  gs : s2.gs = s1.gs
  mem : ∀ x, ¬ InRange x P 16 → ¬ InRange x g 8 → ¬ InRange x (s1.regs .rsp - 8) 8 →
    s2.mem x = s1.mem x
  ptr : s2.mem.read64 g = P + 16
  addr : s2.mem.read64 P = v
  frame : s2.mem.read64 (P + 8) = R

theorem ends_saveFrame (w k : Code) {t1 t2 : Reg} {t : Temps} (h1 : t1 ≠ .rsp) (h2 : t2 ≠ .rsp)
    (hne : t1 ≠ t2) (s1 : State) (g P v R : W) (hg : s1.gs = g) (hP : s1.mem.read64 g = P)
    (hv : s1.mem.read64 (s1.regs .rsp - 8 + BitVec.ofInt 64 t.spOffset) = v)
    (hR : s1.regs .rsp + 16 = R)
    (hsv : Sep (s1.regs .rsp - 8 + BitVec.ofInt 64 t.spOffset) 8 (s1.regs .rsp - 8) 8)
    (sg : Sep P 16 g 8) (sf : Sep P 16 (s1.regs .rsp - 8) 8) (gf : Sep g 8 (s1.regs .rsp - 8) 8) :
    ∃ s2, AfterFrameCore t1 t2 g P v R s1 s2 ∧
      ∀ o, Ends w k s2 o → Ends w (saveRaAndFrame t1 t2 t ++ k) s1 o := by
  let a := s1.regs .rsp - 8
  let m1 := s1.mem.write64 a s1.flags
  let m2 := m1.write64 g (P + 16)
  let m3 := m2.write64 P v
  let m4 := m3.write64 (P + 8) R
  have p1 : (P - P).toNat + 8 ≤ 16 := by rw [BitVec.sub_self]; decide
  have p2 : (P + 8 - P).toNat + 8 ≤ 16 := by rw [add_sub_self]; decide
  have hm4 : ∀ x, ¬ InRange x P 16 → ¬ InRange x g 8 → m4 x = m1 x := by
    intro x hx hx'
    show Mem.write64 (Mem.write64 (Mem.write64 _ _ _) _ _) _ _ x = _
    rw [write64_outRange, write64_outRange, write64_outRange]
    · exact hx'
    · intro hc; exact hx (inRange_sub hc p1)
    · intro hc; exact hx (inRange_sub hc p2)
  have hfl : m4.read64 a = s1.flags := by
    have : m4.read64 a = m1.read64 a :=
      read64_eq _ _ _ fun x hx => hm4 x (sep_not_inRange sf.symm hx) (sep_not_inRange gf.symm hx)
    rw [this]; exact read64_write64 _ _ _
  let q0 : State := { s1.set .rsp a with mem := m1 }
  let q1 := q0.set t2 v
  let q2 := q1.set t1 P
  let q3 : State := { q2 with mem := m2, flags := addFlags P 16 }
  let q4 : State := { q3 with mem := m3 }
  let q5 := q4.set t2 R
  let q6 : State := { q5 with mem := m4 }
  let q7 : State := { q6.set .rsp (a + 8) with flags := s1.flags }
  have hq6 : ∀ r, r ≠ t1 → r ≠ t2 → q6.regs r = if r = .rsp then a else s1.regs r := by
    intro r n1 n2
    simp only [q6, q5, q4, q3, q2, q1, q0, State.set, if_neg n1, if_neg n2]
  refine ⟨q7, ⟨?_, rfl, rfl, ?_, ?_, ?_, ?_⟩, ?_⟩
  · intro r n1 n2
    show (if r = .rsp then a + 8 else q6.regs r) = _
    by_cases e : r = .rsp
    · rw [if_pos e, e]; exact BitVec.sub_add_cancel _ _
    · rw [if_neg e, hq6 r n1 n2, if_neg e]
  · intro x x1 x2 x3
    show m4 x = _
    rw [hm4 x x1 x2]
    exact write64_outRange _ _ _ _ x3
  · show Mem.read64 (Mem.write64 (Mem.write64 (Mem.write64 _ _ _) _ _) _ _) _ = _
    rw [read64_write64_sep, read64_write64_sep, read64_write64]
    · exact (sep_sub_left sg p1).symm
    · exact (sep_sub_left sg p2).symm
  · show Mem.read64 (Mem.write64 (Mem.write64 (Mem.write64 _ _ _) _ _) _ _) _ = _
    rw [read64_write64_sep, read64_write64]
    rw [sep_iff (by decide) (by decide), add_sub_self, self_sub_add]; decide
  · exact read64_write64 _ _ _
  · intro o ho
    refine ends_next (s' := q0) ?_ (ends_next (s' := q1) ?_ (ends_next (s' := q2) ?_
      (ends_next (s' := q3) ?_ (ends_next (s' := q4) ?_ (ends_next (s' := q5) ?_
        (ends_next (s' := q6) ?_ (ends_next (s' := q7) ?_ ho)))))))
    · rfl
    · have : m1.read64 (a + BitVec.ofInt 64 t.spOffset) = v := by
        rw [← hv]; exact read64_write64_sep _ _ _ _ hsv
      simp only [exec, State.ea, q1, q0, State.set, if_true, this]
    · have e : q1.mem.read64 (q1.gsa 0) = P := by
        show m1.read64 (s1.gs + _) = _
        rw [hg, ofInt_zero64, BitVec.add_zero, ← hP]
        exact read64_write64_sep _ _ _ _ gf
      simp only [exec, e, q2]
    · have e1 : q2.gsa 0 = g := by
        show s1.gs + _ = _
        rw [hg, ofInt_zero64, BitVec.add_zero]
      have e2 : m1.read64 g = P := by rw [← hP]; exact read64_write64_sep _ _ _ _ gf
      have e3 : q2.mem = m1 := rfl
      simp only [exec, e1, e3, e2]
      rfl
    · have e1 : q3.ea t1 0 = P := by simp [State.ea, q3, q2, State.set]
      have e2 : q3.regs t2 = v := by simp [q3, q2, q1, State.set, hne.symm]
      simp only [exec, e1, e2]
      rfl
    · have e1 : q4.ea .rsp 24 = R := by
        have : q4.regs .rsp = a := by simp [q4, q3, q2, q1, q0, State.set, h1.symm, h2.symm]
        rw [State.ea, this, ← hR, ofInt_24]
        show s1.regs .rsp - 8 + 24#64 = _
        bv_omega
      simp only [exec, e1]
      rfl
    · have e1 : q5.ea t1 8 = P + 8 := by simp [State.ea, q5, q4, q3, q2, State.set, hne]
      have e2 : q5.regs t2 = R := by simp [q5, State.set]
      simp only [exec, e1, e2]
      rfl
    · have e1 : q6.regs .rsp = a := by rw [hq6 _ h1.symm h2.symm, if_pos rfl]
      have e2 : q6.mem = m4 := rfl
      simp only [exec, e1, e2, hfl]
      rfl

/-- The frame push at a function entry, scratch registers saved: it falls through and
records the pair (old value of the first scratch register, rsp); registers, flags and
memory elsewhere are as before.  The return address itself is not recorded. -/
theorem frame_push {c1 : Code} {t : Temps} {t1 t2 : Reg}
    (h : Shape c1 t 0 t1 t2 true true) (s : State) (hsep : FramePushSep s) :
    ∃ s', Exits (c1 ++ saveRaAndFrame t1 t2 t ++ restoreCode t1 t2 true true) s s' ∧
      s'.shadow = s.shadow + 16 ∧ s'.mem.read64 s.shadow = s.regs t1 ∧
      s'.mem.read64 (s.shadow + 8) = s.regs .rsp ∧ s'.flags = s.flags ∧
      SameExcept (fun _ => False) [(s.shadow, 16), (s.gs, 8), (s.regs .rsp - 24, 24)] s s' := by
  generalize hw : c1 ++ saveRaAndFrame t1 t2 t ++ restoreCode t1 t2 true true = w
  obtain ⟨s1, hs, e1⟩ := ends_save w (saveRaAndFrame t1 t2 t ++ (restoreCode t1 t2 true true ++ []))
    t1 t2 true true s h.rsp2
  have n16 : BitVec.ofNat 64 (nsave true true) = 16#64 := rfl
  have hr1 : s1.regs .rsp = s.regs .rsp - 16 := hs.rsp
  have hA : s1.regs .rsp - 8 = s.regs .rsp - 24 := by rw [hr1, BitVec.sub_sub]; rfl
  have in16 : ((s.regs .rsp - 16) - (s.regs .rsp - 24)).toNat + 16 ≤ 24 := by
    rw [sub_sub_sub]; decide
  have in8 : ((s.regs .rsp - 24) - (s.regs .rsp - 24)).toNat + 8 ≤ 24 := by
    rw [sub_sub_sub]; decide
  have hm1 : ∀ x, ¬ InRange x (s.regs .rsp - 24) 24 → s1.mem x = s.mem x :=
    fun x hx => hs.mem x fun hc => hx (inRange_sub hc in16)
  have hoff : BitVec.ofInt 64 t.spOffset = 16#64 := by rw [h.off]; rfl
  have hra : s1.regs .rsp - 8 + BitVec.ofInt 64 t.spOffset = s.regs .rsp - 8 := by
    rw [hA, hoff, sub_add_sub]; rfl
  obtain ⟨s2, hc, e2⟩ := ends_saveFrame w (restoreCode t1 t2 true true ++ []) (t := t)
    h.rsp1 h.rsp2 h.ne s1 s.gs s.shadow (s.regs t1) (s.regs .rsp) hs.gs
    (read64_of_sep hm1 hsep.gs_save) (by rw [hra]; exact hs.slot1 rfl)
    (by rw [hr1]; exact BitVec.sub_add_cancel _ _)
    (by rw [hra, hA, sep_iff (by decide) (by decide), sub_sub_sub, sub_sub_sub]; decide)
    hsep.slot_gs (by rw [hA]; exact sep_sub_right hsep.slot_save in8)
    (by rw [hA]; exact sep_sub_right hsep.gs_save in8)
  obtain ⟨s3, hr, e3⟩ := ends_restore w [] t1 t2 true true s2 h.rsp1 h.rsp2 h.ne
  have h2r : s2.regs .rsp = s.regs .rsp - 16 := by
    rw [hc.regs _ h.rsp1.symm h.rsp2.symm, hr1]
  have h3r : s3.regs .rsp = s.regs .rsp := by
    rw [hr.rsp, h2r, n16]; exact BitVec.sub_add_cancel _ _
  have hgs3 : s3.gs = s.gs := by rw [hr.gs, hc.gs, hs.gs]
  have keep : ∀ x, InRange x (s.regs .rsp - 16) 16 → s2.mem x = s1.mem x := by
    intro x hx
    refine hc.mem x (sep_not_inRange hsep.slot_save.symm (inRange_sub hx in16))
      (sep_not_inRange hsep.gs_save.symm (inRange_sub hx in16)) ?_
    rw [hA]
    refine sep_not_inRange (a := s.regs .rsp - 16) (n := 16) ?_ hx
    rw [sep_iff (by decide) (by decide), sub_sub_sub, sub_sub_sub]; decide
  refine ⟨s3, ?_, ?_, ?_, ?_, ?_, ?_, ?_, ?_, ?_⟩
  · rw [exits_iff]
    have := e1 _ (e2 _ (e3 _ (ends_nil w s3)))
    rw [← h.code, List.append_nil, ← List.append_assoc, hw] at this
    exact this
  · rw [State.shadow, hr.mem, hgs3]; exact hc.ptr
  · rw [hr.mem]; exact hc.addr
  · rw [hr.mem]; exact hc.frame
  · rw [hr.flags, hc.flags, hs.flags]
  · exact h3r
  · intro r _
    by_cases e0 : r = .rsp
    · rw [e0]; exact h3r
    by_cases n1 : r = t1
    · rw [n1, hr.tmp1, if_pos rfl, h2r, n16]
      have ea : s.regs .rsp - 16 + 16#64 - 8 = s.regs .rsp - 8 := by
        rw [show s.regs .rsp - 16 + 16#64 = s.regs .rsp from BitVec.sub_add_cancel _ _]
      rw [ea, ← hs.slot1 rfl]
      refine read64_eq _ _ _ fun x hx => keep x (inRange_sub hx ?_)
      rw [sub_sub_sub]; decide
    by_cases n2 : r = t2
    · rw [n2, hr.tmp2, if_pos rfl, h2r, ← hs.slot2 rfl, n16]
      refine read64_eq _ _ _ fun x hx => keep x (inRange_sub hx ?_)
      rw [sub_sub_sub]; decide
    rw [hr.regs r e0 n1 n2, hc.regs r n1 n2, hs.regs r e0]
  · exact hgs3
  · intro x hx
    rw [hr.mem, hc.mem x (hx (s.shadow, 16) (by simp)) (hx (s.gs, 8) (by simp)) ?_,
      hm1 x (hx (s.regs .rsp - 24, 24) (by simp))]
    rw [hA]; intro hc; exact hx (s.regs .rsp - 24, 24) (by simp) (inRange_sub hc in8)

/-! ### The claims -/

variable {fl : JitFlags} {sm : Option JitSummary} {useOrig : Bool} {blockStart addr : Nat}
  {mid : Option MoveInst}

theorem frame_pop_emitted (hf : FrameMode fl) (hm : popMove sm useOrig blockStart = some mid)
    (hok : ScratchOk fl (deadExit sm addr) mid) :
    ∃ c1 t t1 t2 b1 b2, jitStackPop fl sm useOrig blockStart addr =
        some (c1 ++ validateRaAndFrame t1 t2 t ++ restoreCode t1 t2 b1 b2) ∧
      Shape c1 t (popDisp mid) t1 t2 b1 b2 ∧
      nsave b1 b2 = belowSp fl (deadExit sm addr) mid := by
  obtain ⟨c1, t, t1, t2, b1, b2, he, hs, hn, _⟩ := (chosen_pop hok).out
  refine ⟨c1, t, t1, t2, b1, b2, ?_, hs, hn⟩
  unfold jitStackPop
  rw [if_neg hf.notEmpty, hm]
  show stackPopWith _ _ _ _ = _
  unfold stackPopWith
  rw [if_neg hf.notEmpty, he]
  simp [body, hs.tmp1, hs.tmp2, hf.notSave, hf.frame, hs.restore]

/-- C08, what the code does instead.  Under `--validate_frame` the check before a return
raises SIGILL in every state in which no recorded frame value is the address eight bytes
below the return address, whatever the return addresses are. -/
theorem C08_frame_check_traps (hf : FrameMode fl) (hm : popMove sm useOrig blockStart = some mid)
    (hok : ScratchOk fl (deadExit sm addr) mid) {code : Code}
    (hc : jitStackPop fl sm useOrig blockStart addr = some code) {s : State} {l : List (W × W)}
    (hl : s.HoldsFrames l)
    (hsep : CheckSep (s.regs .rsp + BitVec.ofInt 64 (popDisp mid))
      (belowSp fl (deadExit sm addr) mid + 8) (2 * l.length + 2) s)
    (hfr : ∀ p, p ∈ l → p.2 ≠ s.regs .rsp + BitVec.ofInt 64 (popDisp mid) - 8)
    (h0 : s.regs .rsp + BitVec.ofInt 64 (popDisp mid) ≠ 8) : Traps code s := by
  obtain ⟨c1, t, t1, t2, b1, b2, he, hs, hn⟩ := frame_pop_emitted hf hm hok
  rw [he] at hc
  rw [← Option.some.inj hc]
  rw [← hn] at hsep
  exact frame_check_traps hs s l hl hsep hfr h0

/-- C08, the part which holds: the frame push at a function entry records the address of
the return address as frame, falls through, and changes nothing but the shadow stack
and the 24 bytes below the stack pointer.  Missing: the return address is not recorded
(the word next to the frame is whatever the first scratch register held), and the check
does not accept (`C08_honest_return_traps`). -/
theorem C08_frame_push_partial (hf : FrameMode fl) (height : Int) (trgStart : Nat) :
    ∃ (code : Code) (t1 : Reg),
      jitStackPush fl none false height false blockStart trgStart = some code ∧
      ∀ s : State, FramePushSep s → ∃ s', Exits code s s' ∧
        s'.shadow = s.shadow + 16 ∧ s'.mem.read64 s.shadow = s.regs t1 ∧
        s'.mem.read64 (s.shadow + 8) = s.regs .rsp ∧ s'.flags = s.flags ∧
        SameExcept (fun _ => False)
          [(s.shadow, 16), (s.gs, 8), (s.regs .rsp - 24, 24)] s s' := by
  obtain ⟨c1, t, t1, t2, he, hs, _, _⟩ := saveTemps_default (fl := fl) (dead := []) (ex := [])
    (Or.inr rfl) knownName_r8 knownName_r9 (by decide) (by simp) (by simp) 0
  refine ⟨c1 ++ saveRaAndFrame t1 t2 t ++ restoreCode t1 t2 true true, t1, ?_,
    fun s hsep => frame_push hs s hsep⟩
  unfold jitStackPush
  rw [if_neg hf.notEmpty]
  show stackPushWith _ _ none _ = _
  unfold stackPushWith
  rw [if_neg hf.notEmpty, pushTemps, he]
  simp [body, hs.tmp1, hs.tmp2, hf.notSave, hf.frame, hs.restore]

/-- The areas used by a frame push and the later check of the same call, with `n` pairs
recorded before. -/
structure FrameSep (n : Nat) (s : State) : Prop where
  push : FramePushSep s
  old : ∀ i, i < 2 * n + 2 → Sep (s.shadow - BitVec.ofNat 64 (8 * (i + 1))) 8 s.shadow 16
  check : CheckSep (s.regs .rsp) 24 (2 * n + 2) s

theorem HoldsFrames.push {s s' : State} {l : List (W × W)} {v R : W} (hl : s.HoldsFrames l)
    (hp : s'.shadow = s.shadow + 16) (ha : s'.mem.read64 s.shadow = v)
    (hR : s'.mem.read64 (s.shadow + 8) = R)
    (hk : ∀ i, i < 2 * l.length + 2 → s'.mem.read64 (s.shadow - BitVec.ofNat 64 (8 * (i + 1))) =
      s.entry i) : s'.HoldsFrames ((v, R) :: l) := by
  have top0 : s'.entry 0 = R := by
    rw [← hR, State.entry, hp]; congr 1; bv_omega
  have top1 : s'.entry 1 = v := by
    rw [← ha, State.entry, hp]; congr 1; bv_omega
  have rest : ∀ i, i < 2 * l.length + 2 → s'.entry (i + 2) = s.entry i := by
    intro i hi
    rw [← hk i hi, State.entry, hp]; congr 1; bv_omega
  have len : ((v, R) :: l).length = l.length + 1 := rfl
  refine ⟨?_, ?_, ?_, ?_⟩
  · intro i h
    match i, h with
    | 0, _ => exact top1
    | i + 1, h =>
      have hi : i < l.length := Nat.lt_of_succ_lt_succ h
      show s'.entry (2 * i + 1 + 2) = _
      rw [rest _ (by omega)]; exact hl.addr i hi
  · intro i h
    match i, h with
    | 0, _ => exact top0
    | i + 1, h =>
      have hi : i < l.length := Nat.lt_of_succ_lt_succ h
      show s'.entry (2 * i + 2) = _
      rw [rest _ (by omega)]; exact hl.frame i hi
  · show s'.entry (2 * l.length + 2) = 0
    rw [rest _ (by omega)]; exact hl.guard0
  · show s'.entry (2 * l.length + 1 + 2) = 0
    rw [rest _ (by omega)]; exact hl.guard1

/-- C08, negation.  Under `--validate_frame`, take any call whose push ran at the function
entry and which comes back to its return instruction with the stack pointer, the thread
area, the return address and the shadow stack as the push left them.  Unless some older
recorded frame happens to be the odd address `rsp - 8`, the check raises SIGILL: a program
without any attack is killed at its first protected return. -/
theorem C08_honest_return_traps (hf : FrameMode fl) (height : Int) (trgStart : Nat)
    {cpush cpop : Code}
    (hpush : jitStackPush fl none false height false blockStart trgStart = some cpush)
    (hpop : jitStackPop fl none false blockStart addr = some cpop)
    {s : State} {l : List (W × W)} (hl : s.HoldsFrames l) (hsep : FrameSep l.length s)
    (hfr : ∀ p, p ∈ l → p.2 ≠ s.regs .rsp - 8) (h0 : s.regs .rsp ≠ 8) :
    ∃ s1, Exits cpush s s1 ∧ ∀ s2 : State, s2.regs .rsp = s1.regs .rsp → s2.gs = s1.gs →
      s2.shadow = s1.shadow →
      (∀ i, i < 2 * l.length + 4 → s2.entry i = s1.entry i) →
      s2.mem.read64 (s2.regs .rsp) = s.mem.read64 (s.regs .rsp) → Traps cpop s2 := by
  obtain ⟨code, t1, hc, hx⟩ := C08_frame_push_partial (blockStart := blockStart) hf height trgStart
  obtain rfl : code = cpush := Option.some.inj (hc.symm.trans hpush)
  obtain ⟨s1, he, hp, ha, hR, _, hsame⟩ := hx s hsep.push
  refine ⟨s1, he, fun s2 r2 g2 p2 ent2 _ => ?_⟩
  have hk : ∀ i, i < 2 * l.length + 2 →
      s1.mem.read64 (s.shadow - BitVec.ofNat 64 (8 * (i + 1))) = s.entry i := by
    intro i hi
    refine read64_eq _ _ _ fun x hx => hsame.mem x ?_
    intro p hp
    simp only [List.mem_cons, List.not_mem_nil, or_false] at hp
    rcases hp with rfl | rfl | rfl
    · exact sep_not_inRange (hsep.old i hi) hx
    · exact sep_not_inRange (hsep.check.ent_gs i hi) hx
    · exact sep_not_inRange (hsep.check.ent_save i hi) hx
  have hl1 := HoldsFrames.push hl hp ha hR hk
  have hl2 : s2.HoldsFrames ((s.regs t1, s.regs .rsp) :: l) := by
    have len : ((s.regs t1, s.regs .rsp) :: l).length = l.length + 1 := rfl
    exact ⟨fun i h => by rw [ent2 _ (by omega)]; exact hl1.addr i h,
      fun i h => by rw [ent2 _ (by omega)]; exact hl1.frame i h,
      by rw [ent2 _ (by omega)]; exact hl1.guard0, by rw [ent2 _ (by omega)]; exact hl1.guard1⟩
  have hr2 : s2.regs .rsp = s.regs .rsp := r2.trans hsame.rsp
  have hg2 : s2.gs = s.gs := g2.trans hsame.gs
  have hok : ScratchOk fl (deadExit none addr) none := ⟨by simp, by simp [deadExit]⟩
  have hb : belowSp fl (deadExit none addr) none + 8 = 24 := by simp [belowSp, deadExit]
  have hd : BitVec.ofInt 64 (popDisp none) = 0#64 := rfl
  have hent : ∀ i, i < 2 * (l.length + 1) + 2 →
      ∃ b n, ((s2.shadow - BitVec.ofNat 64 (8 * (i + 1))) - b).toNat + 8 ≤ n ∧
        Sep b n s.gs 8 ∧ Sep b n (s.regs .rsp - BitVec.ofNat 64 24) 24 := by
    intro i hi
    rw [p2, hp]
    by_cases hi2 : i < 2
    · refine ⟨s.shadow, 16, ?_, hsep.push.slot_gs, hsep.push.slot_save⟩
      rcases (by omega : i = 0 ∨ i = 1) with rfl | rfl
      · have : s.shadow + 16 - BitVec.ofNat 64 (8 * (0 + 1)) - s.shadow = 8#64 := by bv_omega
        rw [this]; decide
      · have : s.shadow + 16 - BitVec.ofNat 64 (8 * (1 + 1)) - s.shadow = 0#64 := by bv_omega
        rw [this]; decide
    · refine ⟨s.shadow - BitVec.ofNat 64 (8 * (i - 2 + 1)), 8, ?_,
        hsep.check.ent_gs _ (by omega), hsep.check.ent_save _ (by omega)⟩
      have e : s.shadow + 16 - BitVec.ofNat 64 (8 * (i + 1)) =
          s.shadow - BitVec.ofNat 64 (8 * (i - 2 + 1)) := by bv_omega
      rw [e, BitVec.sub_self]; exact Nat.le_refl _
  refine C08_frame_check_traps hf (mid := none) rfl hok hpop hl2 ?_ ?_ ?_
  · rw [hb, hd, BitVec.add_zero, hr2]
    refine ⟨?_, ?_, ?_, ?_, ?_⟩
    · rw [hg2]; exact hsep.check.ret_gs
    · rw [hr2]; exact hsep.check.ret_save
    · rw [hg2, hr2]; exact hsep.check.gs_save
    · intro i hi
      obtain ⟨b, n, h1, h2, _⟩ := hent i hi
      rw [hg2]; exact sep_sub_left h2 h1
    · intro i hi
      obtain ⟨b, n, h1, _, h3⟩ := hent i hi
      rw [hr2]; exact sep_sub_left h3 h1
  · intro p hp'
    rw [hd, BitVec.add_zero, hr2]
    rcases List.mem_cons.1 hp' with rfl | hp'
    · show s.regs .rsp ≠ _
      intro hc
      have : (0 : W) = -8#64 := by
        have := congrArg (· - s.regs .rsp) hc
        simp only [BitVec.sub_self] at this
        rw [show (0 : W) = 0#64 from rfl, this]; bv_omega
      revert this; decide
    · exact hfr p hp'
  · rw [hd, BitVec.add_zero, hr2]; exact h0

/-! ### A concrete case -/

theorem sample_frames : (sampleState 0x401000 []).HoldsFrames [] where
  addr := by intro i h; cases h
  frame := by intro i h; cases h
  guard0 := by decide
  guard1 := by decide

theorem sample_frameSep : FrameSep 0 (sampleState 0x401000 []) where
  push := ⟨sep_of_le (by decide) (by decide) (by decide),
    sep_of_le (by decide) (by decide) (by decide), sep_of_le (by decide) (by decide) (by decide)⟩
  old := fun i hi => sep_of_le (by decide) (by decide) (by revert i; decide)
  check := ⟨sep_of_le (by decide) (by decide) (by decide),
    sep_of_le (by decide) (by decide) (by decide), sep_of_le (by decide) (by decide) (by decide),
    fun i hi => sep_of_le (by decide) (by decide) (by revert i; decide),
    fun i hi => sep_of_le (by decide) (by decide) (by revert i; decide)⟩

/-- C08 on a concrete state: a function which returns at once. -/
example : ∃ cpush cpop s1, jitStackPush { validateFrame := true } none false 0 false 0 0 =
      some cpush ∧ jitStackPop { validateFrame := true } none false 0 0 = some cpop ∧
    Exits cpush (sampleState 0x401000 []) s1 ∧ Traps cpop s1 := by
  have hf : FrameMode { validateFrame := true } := ⟨by decide, by decide, rfl⟩
  obtain ⟨cpush, t1, hpush, hx⟩ := C08_frame_push_partial (blockStart := 0) hf 0 0
  obtain ⟨c1, t, t1, t2, b1, b2, hpop, _⟩ := frame_pop_emitted (useOrig := false) (blockStart := 0)
    (addr := 0) (sm := none) (mid := none) hf rfl ⟨by simp, by simp [deadExit]⟩
  obtain ⟨s1, h1, h2⟩ := C08_honest_return_traps hf 0 0 hpush hpop sample_frames sample_frameSep
    (by simp) (by decide)
  obtain ⟨s1', h1', _, _, _, _, hsame⟩ := hx _ sample_frameSep.push
  obtain rfl := h1.det h1'
  refine ⟨cpush, _, s1, hpush, hpop, h1, h2 s1 rfl rfl rfl (fun _ _ => rfl) ?_⟩
  rw [hsame.rsp]
  refine read64_eq _ _ _ fun x hx => hsame.mem x ?_
  intro p hp
  simp only [List.mem_cons, List.not_mem_nil, or_false] at hp
  rcases hp with rfl | rfl | rfl
  · exact sep_not_inRange (sep_of_le (by decide) (by decide) (by decide)) hx
  · exact sep_not_inRange (sep_of_le (by decide) (by decide) (by decide)) hx
  · exact sep_not_inRange sample_frameSep.check.ret_save hx

end Verif
