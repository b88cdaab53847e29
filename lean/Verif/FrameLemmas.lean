import Verif.CheckLemmas

/-! Execution of the frame-validating variants (`--validate_frame`). -/

namespace Verif

/-- The code from the binding of `unwind` on. -/
def unwindCode (sp : Reg) (k : Code) : Code :=
  [.subImm sp 16, .cmpDword sp 0, .je .error, .jmp .loop,
   .bind .error, .illegal, .bind .done, .popfq] ++ k

/-- The code from the binding of `loop` on. -/
def frameLoop (sp ra : Reg) (off : Int) (k : Code) : Code :=
  [.load ra sp (-16), .subGs 0 16, .cmpMem ra .rsp off, .jne .unwind,
   .lea ra .rsp off, .cmpMem ra sp (-8), .je .done, .bind .unwind] ++ unwindCode sp k

/-- The code contains the loop of `ValidateRaAndFrame`, followed by `k`. -/
structure HasFrameLoop (w : Code) (sp ra : Reg) (off : Int) (k : Code) : Prop where
  loop : target .loop w = some (frameLoop sp ra off k)
  unwind : target .unwind w = some (unwindCode sp k)
  error : target .error w = some (.illegal :: .bind .done :: .popfq :: k)

/-- The loop runs into the trap: `q` is the scan position, none of the frames met is
`f`, the low half of the `n`-th address word is the first that is zero. -/
structure FrameHyp (sp : Reg) (off : Int) (g f q : W) (n : Nat) (s : State) : Prop where
  gs : s.gs = g
  sp : s.regs sp = q
  here : s.regs .rsp + BitVec.ofInt 64 off = f
  frame : ∀ i, i ≤ n → s.mem.read64 (q - BitVec.ofNat 64 (16 * i + 8)) ≠ f
  sepF : ∀ i, i ≤ n → Sep (q - BitVec.ofNat 64 (16 * i + 8)) 8 g 8
  sepA : ∀ i, i ≤ n → Sep (q - BitVec.ofNat 64 (16 * i + 16)) 8 g 8
  more : ∀ i, i < n → ¬ GuardLike (s.mem.read64 (q - BitVec.ofNat 64 (16 * i + 16)))
  last : GuardLike (s.mem.read64 (q - BitVec.ofNat 64 (16 * n + 16)))

/-- States which agree except for flags, the scratch register `ra` and the word at gs. -/
structure Almost (ra : Reg) (s s' : State) : Prop where
  regs : ∀ r, r ≠ ra → s'.regs r = s.regs r
  gs : s'.gs = s.gs
  mem : ∀ x, ¬ InRange x s.gs 8 → s'.mem x = s.mem x

theorem FrameHyp.almost {sp ra : Reg} {off : Int} {g f q : W} {n : Nat} {s s' : State}
    (h : FrameHyp sp off g f q n s) (ha : Almost ra s s') (h1 : sp ≠ ra) (h2 : ra ≠ .rsp) :
    FrameHyp sp off g f q n s' := by
  have rd : ∀ a, Sep a 8 g 8 → s'.mem.read64 a = s.mem.read64 a := by
    intro a hs
    exact read64_of_sep ha.mem (by rw [h.gs]; exact hs)
  refine ⟨by rw [ha.gs, h.gs], by rw [ha.regs _ h1, h.sp], by rw [ha.regs _ h2.symm, h.here],
    ?_, h.sepF, h.sepA, ?_, ?_⟩
  · intro i hi; rw [rd _ (h.sepF i hi)]; exact h.frame i hi
  · intro i hi; rw [rd _ (h.sepA i (by omega))]; exact h.more i hi
  · rw [rd _ (h.sepA n (Nat.le_refl _))]; exact h.last

theorem FrameHyp.down {sp : Reg} {off : Int} {g f q : W} {n : Nat} {s : State}
    (h : FrameHyp sp off g f q (n + 1) s) (v : W) (hs : sp ≠ .rsp) :
    FrameHyp sp off g f (q - 16) n { s.set sp (q - 16) with flags := v } := by
  have e1 : ∀ i, q - 16 - BitVec.ofNat 64 (16 * i + 8) = q - BitVec.ofNat 64 (16 * (i + 1) + 8) := by
    intro i; bv_omega
  have e2 : ∀ i, q - 16 - BitVec.ofNat 64 (16 * i + 16) =
      q - BitVec.ofNat 64 (16 * (i + 1) + 16) := by intro i; bv_omega
  refine ⟨h.gs, by simp [State.set], by simpa [State.set, hs.symm] using h.here,
    ?_, ?_, ?_, ?_, ?_⟩
  · intro i hi; rw [e1]; exact h.frame _ (by omega)
  · intro i hi; rw [e1]; exact h.sepF _ (by omega)
  · intro i hi; rw [e2]; exact h.sepA _ (by omega)
  · intro i hi; rw [e2]; exact h.more _ (by omega)
  · rw [e2]; exact h.last

theorem sub_const (a : W) : a + 18446744073709551600#64 = a - 16#64 := by bv_omega

/-- From the loop head to the unwind label. -/
theorem ends_to_unwind {w : Code} {sp ra : Reg} {off : Int} {k : Code} {g f q : W} {n : Nat}
    {s : State} (hw : HasFrameLoop w sp ra off k) (h1 : sp ≠ ra) (h2 : ra ≠ .rsp)
    (h : FrameHyp sp off g f q n s) :
    ∃ s', Almost ra s s' ∧
      ∀ o, Ends w (unwindCode sp k) s' o → Ends w (frameLoop sp ra off k) s o := by
  let sa := s.set ra (s.mem.read64 (s.ea sp (-16)))
  let v := sa.mem.read64 (sa.gsa 0)
  let sb : State := { sa with mem := sa.mem.write64 (sa.gsa 0) (v - BitVec.ofInt 64 16),
                              flags := cmpFlags v (BitVec.ofInt 64 16) }
  let sc : State := { sb with flags := cmpFlags (sb.regs ra) (sb.mem.read64 (sb.ea .rsp off)) }
  have hsc : Almost ra s sc := by
    refine ⟨fun r hr => by simp [sc, sb, sa, State.set, hr], rfl, fun x hx => ?_⟩
    refine write64_outRange _ _ _ _ ?_
    simpa [State.gsa, sa, State.set] using hx
  by_cases hz : sc.zf
  · let sd := sc.set ra (sc.ea .rsp off)
    let se : State := { sd with flags := cmpFlags (sd.regs ra) (sd.mem.read64 (sd.ea sp (-8))) }
    have hse : Almost ra s se := by
      refine ⟨fun r hr => ?_, rfl, hsc.mem⟩
      simp only [se, sd, State.set, hr, if_false]
      exact hsc.regs r hr
    have hH := h.almost hse h1 h2
    have hzf : se.zf = false := by
      simp only [State.zf, se, cmpFlags_zf, decide_eq_false_iff_not]
      have e1 : sd.regs ra = f := by
        have : sc.ea .rsp off = f := by
          simp only [State.ea]
          rw [hsc.regs _ h2.symm]; exact h.here
        simp [sd, State.set, this]
      have e2 : sd.ea sp (-8) = q - BitVec.ofNat 64 (16 * 0 + 8) := by
        have : sd.regs sp = q := by
          simp only [sd, State.set, h1, if_false]
          rw [hsc.regs _ h1]; exact h.sp
        simp only [State.ea, this, ofInt_neg8]
        bv_omega
      rw [e1, e2]
      exact fun hc => hH.frame 0 (by omega) hc.symm
    refine ⟨se, hse, fun o ho => ?_⟩
    refine ends_next (s' := sa) rfl (ends_next (s' := sb) rfl (ends_next (s' := sc) rfl
      (ends_next (s' := sc) (by simp [exec, hz]) (ends_next (s' := sd) rfl
        (ends_next (s' := se) rfl (ends_next (s' := se) (by simp [exec, hzf])
          (ends_next (s' := se) rfl ho)))))))
  · refine ⟨sc, hsc, fun o ho => ?_⟩
    refine ends_next (s' := sa) rfl (ends_next (s' := sb) rfl (ends_next (s' := sc) rfl
      (ends_goto (l := .unwind) (s' := sc) (by simp [exec, hz]) hw.unwind ho)))

theorem ends_frame_trap {w : Code} {sp ra : Reg} {off : Int} {k : Code} {g f : W}
    (hw : HasFrameLoop w sp ra off k) (h1 : sp ≠ ra) (h2 : ra ≠ .rsp) (h3 : sp ≠ .rsp) (n : Nat) :
    ∀ (q : W) (s : State), FrameHyp sp off g f q n s →
      ∃ s', Ends w (frameLoop sp ra off k) s (.trap s') := by
  have lowEq : ∀ (s : State) (q : W), s.regs sp = q - 16 →
      s.mem.read32 (s.regs sp) = (s.mem.read64 (q - BitVec.ofNat 64 (16 * 0 + 16))).setWidth 32 := by
    intro s q h
    rw [read32_eq_low, h]
    rfl
  induction n with
  | zero =>
    intro q s h
    obtain ⟨sa, ha, he⟩ := ends_to_unwind hw h1 h2 h
    have hH := h.almost ha h1 h2
    let v := cmpFlags (sa.regs sp) (BitVec.ofInt 64 16)
    let sb : State := { sa.set sp (q - 16) with flags := v }
    let sc : State := { sb with flags := cmpFlags (sb.mem.read32 (sb.regs sp)) (BitVec.ofInt 32 0) }
    refine ⟨sc, he _ (ends_next (s' := sb) ?_ (ends_next (s' := sc) rfl
      (ends_goto (l := .error) (s' := sc) ?_ hw.error (ends_trap rfl))))⟩
    · simp only [exec, sb, v, hH.sp]; rfl
    · have : sb.mem.read32 (sb.regs sp) = 0#32 := by
        rw [lowEq sb q (by simp [sb, State.set])]
        exact hH.last
      have hz : sc.zf = true := by
        simp only [State.zf, sc, cmpFlags_zf, this]; decide
      simp [exec, hz]
  | succ n ih =>
    intro q s h
    obtain ⟨sa, ha, he⟩ := ends_to_unwind hw h1 h2 h
    have hH := h.almost ha h1 h2
    let v := cmpFlags (sa.regs sp) (BitVec.ofInt 64 16)
    let sb : State := { sa.set sp (q - 16) with flags := v }
    let sc : State := { sb with flags := cmpFlags (sb.mem.read32 (sb.regs sp)) (BitVec.ofInt 32 0) }
    obtain ⟨s', hs'⟩ := ih (q - 16) sc (hH.down _ h3)
    refine ⟨s', he _ (ends_next (s' := sb) ?_ (ends_next (s' := sc) rfl
      (ends_next (s' := sc) ?_ (ends_goto (l := .loop) (s' := sc) rfl hw.loop hs'))))⟩
    · simp only [exec, sb, v, hH.sp]; rfl
    · have : sb.mem.read32 (sb.regs sp) ≠ 0#32 := by
        rw [lowEq sb q (by simp [sb, State.set])]
        exact hH.more 0 (by omega)
      have hz : sc.zf = false := by
        simp only [State.zf, sc, cmpFlags_zf]
        exact decide_eq_false this
      simp [exec, hz]

end Verif
