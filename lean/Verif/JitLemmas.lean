import Verif.X86Lemmas
import Verif.Jit

/-! Lemmas about the emitted code: shapes and execution of its three parts. -/

namespace Verif

/-! ## Ranges -/

theorem sep_sub_left {a a' b : W} {n n' m : Nat} (h : Sep a n b m)
    (hs : (a' - a).toNat + n' ≤ n) : Sep a' n' b m := by
  intro i j hi hj e
  refine h ((a' - a).toNat + i) j (by omega) hj ?_
  rw [← e]
  apply BitVec.eq_of_toNat_eq
  have := a.isLt
  have := a'.isLt
  simp only [BitVec.toNat_add, BitVec.toNat_ofNat, BitVec.toNat_sub] at *
  omega

theorem sep_sub_right {a b b' : W} {n m m' : Nat} (h : Sep a n b m)
    (hs : (b' - b).toNat + m' ≤ m) : Sep a n b' m' :=
  (sep_sub_left h.symm hs).symm

theorem inRange_sub {x a a' : W} {n n' : Nat} (hx : InRange x a' n')
    (hs : (a' - a).toNat + n' ≤ n) : InRange x a n := by
  have := a.isLt
  have := a'.isLt
  have := x.isLt
  simp only [InRange, BitVec.toNat_sub] at *
  omega

theorem read64_of_sep {m m' : Mem} {a b : W} {n : Nat}
    (h : ∀ x, ¬ InRange x b n → m' x = m x) (hs : Sep a 8 b n) : m'.read64 a = m.read64 a :=
  read64_eq _ _ _ fun x hx => h x (sep_not_inRange hs hx)

@[simp] theorem ofInt_zero64 : BitVec.ofInt 64 0 = 0#64 := rfl
@[simp] theorem ofInt_eight : BitVec.ofInt 64 8 = 8#64 := rfl
@[simp] theorem ofInt_sixteen : BitVec.ofInt 64 16 = 16#64 := rfl
@[simp] theorem ofInt_24 : BitVec.ofInt 64 24 = 24#64 := rfl
@[simp] theorem ofInt_neg8 : BitVec.ofInt 64 (-8) = -8#64 := rfl
@[simp] theorem ofInt_neg16 : BitVec.ofInt 64 (-16) = -16#64 := rfl

/-! ## Saving and restoring the scratch registers -/

/-- Code which saves the scratch registers. -/
def saveCode (t1 t2 : Reg) (b1 b2 : Bool) : Code :=
  (if b1 then [.push t1] else []) ++ (if b2 then [.push t2] else [])

/-- Code which restores the scratch registers. -/
def restoreCode (t1 t2 : Reg) (b1 b2 : Bool) : Code :=
  (if b2 then [.pop t2] else []) ++ (if b1 then [.pop t1] else [])

/-- Number of bytes used for saving. -/
def nsave (b1 b2 : Bool) : Nat := 8 * (b1.toNat + b2.toNat)

/-- The effect of saving. -/
structure AfterSave (t1 t2 : Reg) (b1 b2 : Bool) (s s1 : State) : Prop where
  rsp : s1.regs .rsp = s.regs .rsp - BitVec.ofNat 64 (nsave b1 b2)
  regs : ∀ r, r ≠ .rsp → s1.regs r = s.regs r
  flags : s1.flags = s.flags
  gs : s1.gs = s.gs
  mem : ∀ x, ¬ InRange x (s.regs .rsp - BitVec.ofNat 64 (nsave b1 b2)) (nsave b1 b2) →
    s1.mem x = s.mem x
  slot1 : b1 = true → s1.mem.read64 (s.regs .rsp - 8) = s.regs t1
  slot2 : b2 = true →
    s1.mem.read64 (s.regs .rsp - BitVec.ofNat 64 (nsave b1 b2)) = s.regs t2

theorem ends_save (w k : Code) (t1 t2 : Reg) (b1 b2 : Bool) (s : State)
    (h2 : t2 ≠ .rsp) :
    ∃ s1, AfterSave t1 t2 b1 b2 s s1 ∧
      ∀ o, Ends w k s1 o → Ends w (saveCode t1 t2 b1 b2 ++ k) s o := by
  cases b1 <;> cases b2
  · refine ⟨s, ⟨by simp [nsave], fun _ _ => rfl, rfl, rfl, fun _ _ => rfl, by simp, by simp⟩, ?_⟩
    intro o h; exact h
  · refine ⟨s.pushW (s.regs t2), ⟨by simp [nsave, State.pushW, State.set], ?_, rfl, rfl, ?_,
      by simp, ?_⟩, ?_⟩
    · intro r hr; simp [State.pushW, State.set, hr]
    · intro x hx
      exact write64_outRange _ _ _ _ (by simpa [nsave] using hx)
    · intro _
      simp [State.pushW, nsave, read64_write64]
    · intro o h
      exact ends_next rfl h
  · refine ⟨s.pushW (s.regs t1), ⟨by simp [nsave, State.pushW, State.set], ?_, rfl, rfl, ?_,
      ?_, by simp⟩, ?_⟩
    · intro r hr; simp [State.pushW, State.set, hr]
    · intro x hx
      exact write64_outRange _ _ _ _ (by simpa [nsave] using hx)
    · intro _
      simp [State.pushW, read64_write64]
    · intro o h
      exact ends_next rfl h
  · have e : s.regs .rsp - 8 - 8 = s.regs .rsp - 16#64 := by bv_omega
    have hrng : ((s.regs .rsp - 8) - (s.regs .rsp - 16#64)).toNat + 8 ≤ 16 := by
      have : (s.regs .rsp - 8) - (s.regs .rsp - 16#64) = 8#64 := by bv_omega
      rw [this]; decide
    have hrng2 : ((s.regs .rsp - 16#64) - (s.regs .rsp - 16#64)).toNat + 8 ≤ 16 := by
      rw [BitVec.sub_self]; decide
    have hsep : Sep (s.regs .rsp - 8) 8 (s.regs .rsp - 16#64) 8 := by
      rw [sep_iff (by decide) (by decide)]
      have e1 : (s.regs .rsp - 16#64) - (s.regs .rsp - 8) = -8#64 := by bv_omega
      have e2 : (s.regs .rsp - 8) - (s.regs .rsp - 16#64) = 8#64 := by bv_omega
      rw [e1, e2]; decide
    refine ⟨(s.pushW (s.regs t1)).pushW (s.regs t2), ⟨?_, ?_, rfl, rfl, ?_, ?_, ?_⟩, ?_⟩
    · simp [nsave, State.pushW, State.set]
      simpa using e
    · intro r hr; simp [State.pushW, State.set, hr]
    · intro x hx
      simp only [State.pushW, State.set, if_true]
      rw [e, write64_outRange, write64_outRange]
      · intro hc; exact hx (inRange_sub hc hrng)
      · intro hc; exact hx (inRange_sub hc hrng2)
    · intro _
      simp only [State.pushW, State.set, if_true]
      rw [e, read64_write64_sep _ _ _ _ hsep, read64_write64]
    · intro _
      simp only [State.pushW, State.set, if_true, nsave]
      rw [e, show 8 * (true.toNat + true.toNat) = 16 from rfl, read64_write64]
    · intro o h
      refine ends_next rfl (ends_next ?_ h)
      simp only [exec]
      congr 2
      simp [State.pushW, State.set, h2]

/-- The effect of restoring. -/
structure AfterRestore (t1 t2 : Reg) (b1 b2 : Bool) (s2 s3 : State) : Prop where
  rsp : s3.regs .rsp = s2.regs .rsp + BitVec.ofNat 64 (nsave b1 b2)
  regs : ∀ r, r ≠ .rsp → r ≠ t1 → r ≠ t2 → s3.regs r = s2.regs r
  flags : s3.flags = s2.flags
  gs : s3.gs = s2.gs
  mem : s3.mem = s2.mem
  tmp1 : s3.regs t1 = if b1 then
    s2.mem.read64 (s2.regs .rsp + BitVec.ofNat 64 (nsave b1 b2) - 8) else s2.regs t1
  tmp2 : s3.regs t2 = if b2 then s2.mem.read64 (s2.regs .rsp) else s2.regs t2

theorem ends_restore (w k : Code) (t1 t2 : Reg) (b1 b2 : Bool) (s2 : State)
    (h1 : t1 ≠ .rsp) (h2 : t2 ≠ .rsp) (h12 : t1 ≠ t2) :
    ∃ s3, AfterRestore t1 t2 b1 b2 s2 s3 ∧
      ∀ o, Ends w k s3 o → Ends w (restoreCode t1 t2 b1 b2 ++ k) s2 o := by
  cases b1 <;> cases b2
  · refine ⟨s2, ⟨by simp [nsave], fun _ _ _ _ => rfl, rfl, rfl, rfl, by simp, by simp⟩, ?_⟩
    intro o h; exact h
  · refine ⟨(s2.set .rsp (s2.regs .rsp + 8)).set t2 (s2.mem.read64 (s2.regs .rsp)),
      ⟨?_, ?_, rfl, rfl, rfl, ?_, ?_⟩, ?_⟩
    · simp [State.set, h2.symm, nsave]
    · intro r hr _ hr2; simp [State.set, hr, hr2]
    · simp [State.set, h12, h1]
    · simp [State.set]
    · intro o h; exact ends_next rfl h
  · refine ⟨(s2.set .rsp (s2.regs .rsp + 8)).set t1 (s2.mem.read64 (s2.regs .rsp)),
      ⟨?_, ?_, rfl, rfl, rfl, ?_, ?_⟩, ?_⟩
    · simp [State.set, h1.symm, nsave]
    · intro r hr hr1 _; simp [State.set, hr, hr1]
    · simp [State.set, nsave, BitVec.add_sub_cancel]
    · simp [State.set, h12.symm, h2]
    · intro o h; exact ends_next rfl h
  · let sa := (s2.set .rsp (s2.regs .rsp + 8)).set t2 (s2.mem.read64 (s2.regs .rsp))
    refine ⟨(sa.set .rsp (sa.regs .rsp + 8)).set t1 (sa.mem.read64 (sa.regs .rsp)),
      ⟨?_, ?_, rfl, rfl, rfl, ?_, ?_⟩, ?_⟩
    · simp [sa, State.set, h1.symm, h2.symm, nsave, BitVec.add_assoc]
    · intro r hr hr1 hr2; simp [sa, State.set, hr, hr1, hr2]
    · simp only [sa, State.set, h2.symm, nsave, if_true, if_false]
      congr 1
      rw [show 8 * (true.toNat + true.toNat) = 16 from rfl]
      bv_omega
    · simp [sa, State.set, h12.symm, h2]
    · intro o h
      exact ends_next rfl (ends_next rfl h)

/-! ## Recording the return address -/

theorem ends_saveRa (w k : Code) (sp ra : Reg) (t : Temps) (s1 : State)
    (h12 : sp ≠ ra) :
    ∃ s2, (∀ r, r ≠ sp → r ≠ ra → s2.regs r = s1.regs r) ∧ s2.flags = s1.flags ∧
      s2.gs = s1.gs ∧
      s2.mem = (s1.mem.write64 (s1.mem.read64 s1.gs)
          (s1.mem.read64 (s1.regs .rsp + BitVec.ofInt 64 t.spOffset))).write64 s1.gs
            (s1.mem.read64 s1.gs + 8) ∧
      ∀ o, Ends w k s2 o → Ends w (saveRa sp ra t ++ k) s1 o := by
  refine ⟨_, ?_, ?_, ?_, ?_, fun o h => ends_next rfl (ends_next rfl (ends_next rfl
    (ends_next rfl (ends_next rfl h))))⟩
  · intro r hr1 hr2; simp [State.set, hr1, hr2]
  · rfl
  · rfl
  · simp [State.set, State.ea, State.gsa, h12.symm]

/-! ## The check -/

/-- Address of the `i`-th entry (from the top) below the shadow pointer `q`. -/
def entAddr (q : W) (i : Nat) : W := q - BitVec.ofNat 64 (8 * (i + 1))

theorem entAddr_succ (q : W) (i : Nat) : entAddr (q - 8) i = entAddr q (i + 1) := by
  unfold entAddr; bv_omega

theorem entAddr_zero (q : W) : entAddr q 0 = q - 8 := by
  unfold entAddr; bv_omega

/-- The code from the binding of `loop` on. -/
def loopCode (sp ra : Reg) (off : Int) (k : Code) : Code :=
  [.lea sp sp (-8), .load ra sp 0, .storeGs 0 sp, .cmpMem ra .rsp off,
   .je .done, .cmpDword sp 0, .je .error, .jmp .loop,
   .bind .error, .illegal, .bind .done] ++ k

/-- `w` contains the check with scratch registers `sp`, `ra`, followed by `k`. -/
structure HasLoop (w : Code) (sp ra : Reg) (off : Int) (k : Code) : Prop where
  loop : target .loop w = some (loopCode sp ra off k)
  done : target .done w = some k
  error : target .error w = some (.illegal :: .bind .done :: k)

/-- One iteration up to the first comparison. -/
def iter (sp ra : Reg) (off : Int) (s : State) : State :=
  let sp' := s.regs sp - 8
  let s' : State :=
    { (s.set sp sp').set ra (s.mem.read64 sp') with mem := s.mem.write64 s.gs sp' }
  { s' with flags := cmpFlags (s.mem.read64 sp') (s'.mem.read64 (s'.ea .rsp off)) }

theorem sub_eq_add_neg8 (a : W) : a + 18446744073709551608#64 = a - 8#64 := by bv_omega

theorem ends_iter (w k' : Code) (sp ra : Reg) (off : Int) (s : State)
    (h12 : sp ≠ ra) (o : Outcome) (h : Ends w k' (iter sp ra off s) o) :
    Ends w ([.lea sp sp (-8), .load ra sp 0, .storeGs 0 sp, .cmpMem ra .rsp off] ++ k') s o := by
  refine ends_next (s' := s.set sp (s.regs sp - 8)) ?_ ?_
  · simp [exec, State.ea, sub_eq_add_neg8]
  refine ends_next (s' := (s.set sp (s.regs sp - 8)).set ra (s.mem.read64 (s.regs sp - 8))) ?_ ?_
  · simp [exec, State.ea, State.set]
  refine ends_next (s' := { (s.set sp (s.regs sp - 8)).set ra (s.mem.read64 (s.regs sp - 8)) with
    mem := s.mem.write64 s.gs (s.regs sp - 8) }) ?_ ?_
  · simp [exec, State.gsa, State.set, h12]
  refine ends_next (s' := iter sp ra off s) ?_ h
  simp [exec, iter, State.set]

/-- Hypotheses under which the loop is analysed: `R` is the location of the
return address and `ret` its content, `q` the shadow pointer, `g` the location of
the shadow pointer word; entries up to number `n` are `e 0`, `e 1`, ... -/
structure LoopHyp (sp ra : Reg) (off : Int) (g R ret q : W) (e : Nat → W) (n : Nat)
    (s : State) : Prop where
  gs : s.gs = g
  sp : s.regs sp = q
  slot : s.regs .rsp + BitVec.ofInt 64 off = R
  ret : s.mem.read64 R = ret
  ent : ∀ i, i ≤ n → s.mem.read64 (entAddr q i) = e i
  sepR : Sep R 8 g 8
  sepE : ∀ i, i ≤ n → Sep (entAddr q i) 8 g 8

theorem LoopHyp.iter {sp ra : Reg} {off : Int} {g R ret q : W} {e : Nat → W} {n : Nat}
    {s : State} (h12 : sp ≠ ra) (h1 : sp ≠ .rsp) (h2 : ra ≠ .rsp)
    (h : LoopHyp sp ra off g R ret q e (n + 1) s) :
    LoopHyp sp ra off g R ret (q - 8) (fun i => e (i + 1)) n (iter sp ra off s) where
  gs := h.gs
  sp := by simp [Verif.iter, State.set, h12, h.sp]
  slot := by simpa [Verif.iter, State.set, h1.symm, h2.symm] using h.slot
  ret := by
    simp only [Verif.iter]
    rw [read64_write64_sep _ _ _ _ (by rw [h.gs]; exact h.sepR), h.ret]
  ent := by
    intro i hi
    rw [entAddr_succ]
    simp only [Verif.iter]
    rw [read64_write64_sep _ _ _ _ (by rw [h.gs]; exact h.sepE _ (by omega))]
    exact h.ent _ (by omega)
  sepR := h.sepR
  sepE := by
    intro i hi
    rw [entAddr_succ]
    exact h.sepE _ (by omega)

theorem iter_zf {sp ra : Reg} {off : Int} {g R ret q : W} {e : Nat → W} {n : Nat}
    {s : State} (h1 : sp ≠ .rsp) (h2 : ra ≠ .rsp)
    (h : LoopHyp sp ra off g R ret q e n s) :
    (iter sp ra off s).zf = decide (e 0 = ret) := by
  simp only [iter, State.zf, State.ea, State.set, cmpFlags_zf, h1.symm, h2.symm, if_false]
  rw [read64_write64_sep, h.slot, h.ret, h.sp, ← entAddr_zero, h.ent 0 (by omega)]
  rw [h.slot, h.gs]; exact h.sepR

/-- What the check leaves unchanged. -/
structure LoopPost (sp ra : Reg) (s s' : State) : Prop where
  regs : ∀ r, r ≠ sp → r ≠ ra → s'.regs r = s.regs r
  gs : s'.gs = s.gs
  mem : ∀ x, ¬ InRange x s.gs 8 → s'.mem x = s.mem x

theorem LoopPost.iter (sp ra : Reg) (off : Int) (s : State) :
    LoopPost sp ra s (iter sp ra off s) where
  regs := by intro r h h'; simp [Verif.iter, State.set, h, h']
  gs := rfl
  mem := by intro x hx; exact write64_outRange _ _ _ _ hx

theorem LoopPost.trans {sp ra : Reg} {s s' s'' : State} (h : LoopPost sp ra s s')
    (h' : LoopPost sp ra s' s'') : LoopPost sp ra s s'' where
  regs := fun r a b => (h'.regs r a b).trans (h.regs r a b)
  gs := h'.gs.trans h.gs
  mem := fun x hx => (h'.mem x (by rw [h.gs]; exact hx)).trans (h.mem x hx)

theorem LoopPost.setFlags {sp ra : Reg} {s s' : State} (h : LoopPost sp ra s s') (f : W) :
    LoopPost sp ra s { s' with flags := f } where
  regs := h.regs
  gs := h.gs
  mem := h.mem

/-- The iteration after a mismatch on a non-guard entry returns to the loop head. -/
theorem ends_continue {w : Code} {sp ra : Reg} {off : Int} {k : Code} {g R ret q : W}
    {e : Nat → W} {n : Nat} {s : State} (hw : HasLoop w sp ra off k)
    (h12 : sp ≠ ra) (h1 : sp ≠ .rsp) (h2 : ra ≠ .rsp)
    (h : LoopHyp sp ra off g R ret q e n s) (hne : e 0 ≠ ret)
    (hlow : (e 0).setWidth 32 ≠ 0#32) :
    ∃ f, ∀ o, Ends w (loopCode sp ra off k) { iter sp ra off s with flags := f } o →
      Ends w (loopCode sp ra off k) s o := by
  refine ⟨cmpFlags ((iter sp ra off s).mem.read32 ((iter sp ra off s).regs sp))
    (BitVec.ofInt 32 0), fun o ho => ?_⟩
  refine ends_iter w _ sp ra off s h12 o ?_
  refine ends_next (s' := iter sp ra off s) ?_ ?_
  · simp [exec, iter_zf h1 h2 h, hne]
  refine ends_next rfl ?_
  refine ends_next (s' := { iter sp ra off s with
    flags := cmpFlags ((iter sp ra off s).mem.read32 ((iter sp ra off s).regs sp))
      (BitVec.ofInt 32 0) }) ?_ ?_
  · have hrd : (iter sp ra off s).mem.read32 ((iter sp ra off s).regs sp) =
        (e 0).setWidth 32 := by
      rw [read32_eq_low]
      simp only [iter, State.set, h12, if_true, if_false]
      rw [read64_write64_sep, h.sp, ← entAddr_zero, h.ent 0 (by omega)]
      rw [h.sp, ← entAddr_zero, h.gs]; exact h.sepE 0 (by omega)
    simp only [exec, State.zf, cmpFlags_zf, hrd]
    rw [if_neg]
    simpa using hlow
  exact ends_goto rfl hw.loop ho

theorem LoopHyp.setFlags {sp ra : Reg} {off : Int} {g R ret q : W} {e : Nat → W} {n : Nat}
    {s : State} (h : LoopHyp sp ra off g R ret q e n s) (f : W) :
    LoopHyp sp ra off g R ret q e n { s with flags := f } where
  gs := h.gs
  sp := h.sp
  slot := h.slot
  ret := h.ret
  ent := h.ent
  sepR := h.sepR
  sepE := h.sepE

/-- The loop accepts when entry `n` is the return address and the ones above are
neither it nor guard-like. -/
theorem ends_loop_accept {w : Code} {sp ra : Reg} {off : Int} {k : Code} {g R ret : W}
    (hw : HasLoop w sp ra off k) (h12 : sp ≠ ra) (h1 : sp ≠ .rsp) (h2 : ra ≠ .rsp) (n : Nat) :
    ∀ (q : W) (e : Nat → W) (s : State), LoopHyp sp ra off g R ret q e n s →
      (∀ i, i < n → e i ≠ ret ∧ (e i).setWidth 32 ≠ 0#32) → e n = ret →
      ∃ s', LoopPost sp ra s s' ∧ s'.mem.read64 g = entAddr q n ∧
        ∀ o, Ends w k s' o → Ends w (loopCode sp ra off k) s o := by
  induction n with
  | zero =>
    intro q e s h _ he
    refine ⟨iter sp ra off s, .iter .., ?_, fun o ho => ?_⟩
    · simp only [iter]
      rw [h.gs, read64_write64, h.sp, entAddr_zero]
    · refine ends_iter w _ sp ra off s h12 o ?_
      refine ends_goto (l := .done) (s' := iter sp ra off s) ?_ hw.done ho
      simp [exec, iter_zf h1 h2 h, he]
  | succ n ih =>
    intro q e s h hlt he
    obtain ⟨f, hf⟩ := ends_continue hw h12 h1 h2 h (hlt 0 (by omega)).1 (hlt 0 (by omega)).2
    obtain ⟨s', hp, hg, hs⟩ := ih (q - 8) (fun i => e (i + 1)) _ ((h.iter h12 h1 h2).setFlags f)
      (fun i hi => hlt (i + 1) (by omega)) he
    refine ⟨s', (LoopPost.iter sp ra off s).setFlags f |>.trans hp, ?_, fun o ho => hf o (hs o ho)⟩
    rw [hg, entAddr_succ]

/-- The loop traps when it meets a guard-like entry before the return address. -/
theorem ends_loop_reject {w : Code} {sp ra : Reg} {off : Int} {k : Code} {g R ret : W}
    (hw : HasLoop w sp ra off k) (h12 : sp ≠ ra) (h1 : sp ≠ .rsp) (h2 : ra ≠ .rsp) (n : Nat) :
    ∀ (q : W) (e : Nat → W) (s : State), LoopHyp sp ra off g R ret q e n s →
      (∀ i, i < n → e i ≠ ret ∧ (e i).setWidth 32 ≠ 0#32) → e n ≠ ret →
      (e n).setWidth 32 = 0#32 →
      ∃ s', Ends w (loopCode sp ra off k) s (.trap s') := by
  induction n with
  | zero =>
    intro q e s h _ he hlow
    refine ⟨{ iter sp ra off s with
      flags := cmpFlags ((iter sp ra off s).mem.read32 ((iter sp ra off s).regs sp))
        (BitVec.ofInt 32 0) }, ?_⟩
    refine ends_iter w _ sp ra off s h12 _ ?_
    refine ends_next (s' := iter sp ra off s) ?_ ?_
    · simp [exec, iter_zf h1 h2 h, he]
    refine ends_next rfl ?_
    refine ends_goto (l := .error) (s' := { iter sp ra off s with
      flags := cmpFlags ((iter sp ra off s).mem.read32 ((iter sp ra off s).regs sp))
        (BitVec.ofInt 32 0) }) ?_ hw.error ?_
    · have hrd : (iter sp ra off s).mem.read32 ((iter sp ra off s).regs sp) =
          (e 0).setWidth 32 := by
        rw [read32_eq_low]
        simp only [iter, State.set, h12, if_true, if_false]
        rw [read64_write64_sep, h.sp, ← entAddr_zero, h.ent 0 (by omega)]
        rw [h.sp, ← entAddr_zero, h.gs]; exact h.sepE 0 (by omega)
      simp only [exec, State.zf, cmpFlags_zf, hrd]
      rw [if_pos]
      simpa using hlow
    · exact ends_trap rfl
  | succ n ih =>
    intro q e s h hlt he hlow
    obtain ⟨f, hf⟩ := ends_continue hw h12 h1 h2 h (hlt 0 (by omega)).1 (hlt 0 (by omega)).2
    obtain ⟨s', hs⟩ := ih (q - 8) (fun i => e (i + 1)) _ ((h.iter h12 h1 h2).setFlags f)
      (fun i hi => hlt (i + 1) (by omega)) he hlow
    exact ⟨s', hf _ hs⟩

end Verif
