import Verif.Micro

/-!
# C84: the microbenchmarks
-/

namespace Verif

/-! ## Specification -/

/-- The thread area of the benchmarks at `g`: it never holds more than one entry. -/
structure MicroArea (g : W) (s : State) : Prop where
  gs : s.gs = g
  pointer : s.mem.read64 g = g + 8

/-- What assembly may do which the compiler knows only as writing memory: it keeps all registers,
the area, and all memory except the first two words of the area and `n` bytes below the stack
pointer. -/
structure MicroKeeps (g : W) (n : Nat) (s s' : State) : Prop where
  regs : s'.regs = s.regs
  area : MicroArea g s'
  mem : ∀ x, ¬ InRange x g 16 → ¬ InRange x (s.regs .rsp - BitVec.ofNat 64 n) n → s'.mem x = s.mem x

/-! ## Proofs -/

theorem micro_sep (g : W) : Sep g 8 (g + 8) 8 := by
  rw [sep_iff (by decide) (by decide)]
  have e1 : g + 8 - g = 8#64 := by bv_omega
  have e2 : g - (g + 8) = -8#64 := by bv_omega
  rw [e1, e2]; decide

/-- The assembly between saving and restoring. -/
structure MicroMid (g : W) (s s' : State) : Prop where
  regs : ∀ r, r ≠ .rax → r ≠ .rcx → s'.regs r = s.regs r
  area : MicroArea g s'
  mem : ∀ x, ¬ InRange x g 16 → s'.mem x = s.mem x

theorem inRange_first {g x : W} (h : InRange x g 8) : InRange x g 16 :=
  inRange_sub h (by rw [BitVec.sub_self]; decide)

theorem inRange_second {g x : W} (h : InRange x (g + 8) 8) : InRange x g 16 :=
  inRange_sub h (by rw [show g + 8 - g = 8#64 by bv_omega]; decide)

/-- The push records the word at `rsp + 16`. -/
theorem micro_push_mid (w k : Code) {g : W} {s : State} (h : MicroArea g s) :
    ∃ s', MicroMid g s s' ∧ s'.regs .rax = g + 8 ∧ s'.regs .rcx = s.mem.read64 (s.regs .rsp + 16) ∧
      s'.mem.read64 (g + 8) = s.mem.read64 (s.regs .rsp + 16) ∧
      ∀ o, Ends w k s' o → Ends w (microPushBare ++ k) s o := by
  refine ⟨_, ⟨?_, ⟨?_, ?_⟩, ?_⟩, ?_, ?_, ?_, fun o h => ends_next rfl (ends_next rfl (ends_next rfl
    (ends_next rfl h)))⟩
  · intro r h1 h2; simp [State.set, h1, h2]
  · exact h.gs
  · have hp := h.pointer
    have hg := h.gs
    simp [State.set, State.ea, State.gsa, hg, hp]
    exact (read64_write64_sep _ _ _ _ (micro_sep g)).trans (read64_write64 _ _ _)
  · intro x hx
    simp only [State.set, State.ea, State.gsa, h.gs, ofInt_zero64, BitVec.add_zero]
    rw [write64_outRange, write64_outRange]
    · exact fun c => hx (inRange_first c)
    · intro c
      simp only [reduceCtorEq, if_false, if_true, h.pointer] at c
      exact hx (inRange_second c)
  · simp [State.set, State.gsa, h.gs, h.pointer]
  · simp [State.set, State.ea]
  · simp [State.set, State.ea, State.gsa, h.gs, h.pointer, read64_write64]

/-- The pop compares the word at `rsp + 16` with the first word of the area. -/
theorem micro_pop_mid (w k : Code) {g : W} {s : State} (h : MicroArea g s)
    (hs : Sep (s.regs .rsp + 16) 8 g 16) :
    ∃ s', MicroMid g s s' ∧ s'.regs .rax = g + 8 ∧ s'.regs .rcx = g + 8 ∧
      (s'.zf = true ↔ s.mem.read64 (s.regs .rsp + 16) = g + 8) ∧
      ∀ o, Ends w k s' o → Ends w (microPopBare ++ k) s o := by
  have hg := h.gs
  have hp := h.pointer
  have hm : ((s.mem.write64 g (s.mem.read64 g)).read64 (s.regs .rsp + 16)) = s.mem.read64 (s.regs .rsp + 16) :=
    read64_write64_sep _ _ _ _ (sep_mono hs (by decide) (by decide))
  have e : g + 8#64 + 18446744073709551608#64 = g := by bv_omega
  refine ⟨_, ⟨?_, ⟨?_, ?_⟩, ?_⟩, ?_, ?_, ?_, fun o h => ends_next rfl (ends_next rfl (ends_next rfl
    (ends_next rfl h)))⟩
  · intro r h1 h2; simp [State.set, h1, h2]
  · exact h.gs
  · simp [State.set, State.ea, State.gsa, hg, hp, read64_write64]
  · intro x hx
    simp only [State.set, State.ea, State.gsa, h.gs, ofInt_zero64, BitVec.add_zero]
    rw [write64_outRange]
    exact fun c => hx (inRange_first c)
  · simp [State.set, State.gsa, hg, hp]
  · simp [State.set, State.ea, State.gsa, hg, hp]
    rw [e, hp]
    rfl
  · rw [hp] at hm
    have hm : (s.mem.write64 g (g + 8#64)).read64 (s.regs .rsp + 16#64) = _ := hm
    simp only [State.zf, cmpFlags_zf, decide_eq_true_eq]
    simp [State.set, State.ea, State.gsa, hg, hp]
    rw [e, hp, hm]
    exact eq_comm

/-- Saving, a middle part and restoring. -/
theorem micro_around {mid : Code} {g : W} {s : State} (h : MicroArea g s)
    (hs : Sep (s.regs .rsp - 16) 16 g 16) (hr : Sep (s.regs .rsp) 8 g 16)
    {P : State → State → Prop}
    (hmid : ∀ w k s1, MicroArea g s1 → Sep (s1.regs .rsp + 16) 8 g 16 →
      ∃ s2, MicroMid g s1 s2 ∧ P s1 s2 ∧ ∀ o, Ends w k s2 o → Ends w (mid ++ k) s1 o) :
    ∃ s', Exits (.push .rax :: .push .rcx :: (mid ++ [.pop .rcx, .pop .rax])) s s' ∧
      MicroKeeps g 16 s s' ∧ ∃ s1 s2, s1.mem.read64 (s1.regs .rsp + 16) = s.mem.read64 (s.regs .rsp) ∧
        P s1 s2 ∧ s'.mem = s2.mem ∧ s'.flags = s2.flags := by
  have hn : nsave true true = 16 := rfl
  let w : Code := .push .rax :: .push .rcx :: (mid ++ [.pop .rcx, .pop .rax])
  obtain ⟨s1, a1, e1⟩ := ends_save w (mid ++ [.pop .rcx, .pop .rax]) .rax .rcx true true s (by decide)
  have hsp : s1.regs .rsp = s.regs .rsp - 16 := a1.rsp
  have hsp' : s1.regs .rsp + 16 = s.regs .rsp := by rw [hsp]; bv_omega
  have hmem : ∀ x, ¬ InRange x (s.regs .rsp - 16) 16 → s1.mem x = s.mem x := a1.mem
  have hg1 : s1.mem.read64 g = s.mem.read64 g := read64_of_sep hmem (sep_mono hs.symm (by decide) (by decide))
  have h1 : MicroArea g s1 := ⟨a1.gs.trans h.gs, hg1.trans h.pointer⟩
  obtain ⟨s2, b1, b2, e2⟩ := hmid w (restoreCode .rax .rcx true true ++ []) s1 h1 (by rw [hsp']; exact hr)
  obtain ⟨s3, c1, e3⟩ := ends_restore w [] .rax .rcx true true s2 (by decide) (by decide) (by decide)
  have hsp2 : s2.regs .rsp = s.regs .rsp - 16 := (b1.regs .rsp (by decide) (by decide)).trans hsp
  have hm2 : ∀ a, Sep a 8 g 16 → s2.mem.read64 a = s1.mem.read64 a := fun a ha => read64_of_sep b1.mem ha
  refine ⟨s3, ?_, ⟨?_, ⟨?_, ?_⟩, ?_⟩, s1, s2, ?_, b2, c1.mem, c1.flags⟩
  · exact e1 _ (e2 _ (e3 _ (ends_nil w s3)))
  · funext r
    by_cases r1 : r = .rax
    · subst r1
      rw [c1.tmp1, if_pos rfl, hsp2]
      have : s.regs .rsp - 16 + BitVec.ofNat 64 (nsave true true) - 8 = s.regs .rsp - 8 := by
        rw [hn]; bv_omega
      rw [this, hm2 _ (sep_sub_left hs (by
        rw [show s.regs .rsp - 8 - (s.regs .rsp - 16) = 8#64 by bv_omega]; decide))]
      exact a1.slot1 rfl
    · by_cases r2 : r = .rcx
      · subst r2
        rw [c1.tmp2, if_pos rfl, hsp2, hm2 _ (sep_sub_left hs (by rw [BitVec.sub_self]; decide))]
        exact a1.slot2 rfl
      · by_cases r3 : r = .rsp
        · subst r3
          rw [c1.rsp, hsp2, hn]
          bv_omega
        · rw [c1.regs r r3 r1 r2, b1.regs r r1 r2, a1.regs r r3]
  · exact c1.gs.trans b1.area.gs
  · rw [c1.mem]; exact b1.area.pointer
  · intro x hx1 hx2
    rw [c1.mem, b1.mem x hx1]
    exact hmem x hx2
  · rw [hsp']
    exact read64_of_sep hmem (by
      rw [sep_iff (by decide) (by decide)]
      rw [show s.regs .rsp - 16 - s.regs .rsp = -16#64 by bv_omega,
        show s.regs .rsp - (s.regs .rsp - 16) = 16#64 by bv_omega]
      decide)

/-! ## The property -/

theorem C84_init (addr : W) (s : State) : microInit false addr s = none ∧
    ∃ s', microInit true addr s = some s' ∧ MicroArea addr s' ∧ s'.regs = s.regs ∧
      ∀ x, ¬ InRange x addr 8 → s'.mem x = s.mem x :=
  ⟨rfl, _, rfl, ⟨rfl, read64_write64 _ _ _⟩, rfl, fun x hx => write64_outRange _ _ _ x hx⟩

/-- C84.  The push benchmark records the word at the stack pointer in the first entry and keeps all
registers. -/
theorem C84_push {g : W} {s : State} (h : MicroArea g s) (hs : Sep (s.regs .rsp - 16) 16 g 16)
    (hr : Sep (s.regs .rsp) 8 g 16) : ∃ s', Exits microPush s s' ∧ MicroKeeps g 16 s s' ∧
      s'.mem.read64 (g + 8) = s.mem.read64 (s.regs .rsp) := by
  obtain ⟨s', h1, h2, s1, s2, e1, e2, e3, -⟩ := micro_around (mid := microPushBare) h hs hr
    (P := fun s1 s2 => s2.mem.read64 (g + 8) = s1.mem.read64 (s1.regs .rsp + 16))
    fun w k s1 h1 _ => by
      obtain ⟨s2, a, -, -, b, c⟩ := micro_push_mid w k h1
      exact ⟨s2, a, b, c⟩
  exact ⟨s', h1, h2, by rw [e3, e2, e1]⟩

/-- C84.  The pop benchmark compares the word at the stack pointer and keeps all registers; but the
other side of the comparison is always the pointer of the area, not an entry. -/
theorem C84_pop {g : W} {s : State} (h : MicroArea g s) (hs : Sep (s.regs .rsp - 16) 16 g 16)
    (hr : Sep (s.regs .rsp) 8 g 16) : ∃ s', Exits microPop s s' ∧ MicroKeeps g 16 s s' ∧
      (s'.zf = true ↔ s.mem.read64 (s.regs .rsp) = g + 8) := by
  obtain ⟨s', h1, h2, s1, s2, e1, e2, -, e4⟩ := micro_around (mid := microPopBare) h hs hr
    (P := fun s1 s2 => (s2.zf = true ↔ s1.mem.read64 (s1.regs .rsp + 16) = g + 8))
    fun w k s1 h1 h2 => by
      obtain ⟨s2, a, -, -, b, c⟩ := micro_pop_mid w k h1 h2
      exact ⟨s2, a, b, c⟩
  refine ⟨s', h1, h2, ?_⟩
  rw [← e1, ← e2, State.zf, e4]
  exact Iff.rfl

/-- C84, part.  However many iterations, with code between them that leaves the area, gs and the
stack pointer alone, a benchmark that saves its registers works on the first two words of the
area.  Missing: the benchmarks that do not save them. -/
theorem C84_loop_partial {body : Code} (hb : body = microPush ∨ body = microPop) {g : W}
    {other : State → State → Prop} (ho : ∀ s s', other s s' → s'.gs = s.gs ∧
      s'.regs .rsp = s.regs .rsp ∧ s'.mem.read64 g = s.mem.read64 g)
    {s s' : State} (hl : MicroLoop body other s s') (h : MicroArea g s)
    (hs : Sep (s.regs .rsp - 16) 16 g 16) (hr : Sep (s.regs .rsp) 8 g 16) :
    MicroArea g s' ∧ s'.regs .rsp = s.regs .rsp ∧ ∃ s2, Exits body s' s2 ∧ MicroKeeps g 16 s' s2 := by
  have key : ∀ t, MicroArea g t → t.regs .rsp = s.regs .rsp → ∃ t2, Exits body t t2 ∧ MicroKeeps g 16 t t2 := by
    intro t ht e
    rcases hb with rfl | rfl
    · obtain ⟨t2, h1, h2, -⟩ := C84_push ht (by rw [e]; exact hs) (by rw [e]; exact hr)
      exact ⟨t2, h1, h2⟩
    · obtain ⟨t2, h1, h2, -⟩ := C84_pop ht (by rw [e]; exact hs) (by rw [e]; exact hr)
      exact ⟨t2, h1, h2⟩
  have inv : MicroArea g s' ∧ s'.regs .rsp = s.regs .rsp := by
    induction hl with
    | done => exact ⟨h, rfl⟩
    | step _ he hot ih =>
      obtain ⟨i1, i2⟩ := ih
      obtain ⟨t2, k1, k2⟩ := key _ i1 i2
      have := he.det k1
      subst this
      obtain ⟨o1, o2, o3⟩ := ho _ _ hot
      exact ⟨⟨o1.trans k2.area.gs, o3.trans k2.area.pointer⟩, by rw [o2, k2.regs, i2]⟩
  exact ⟨inv.1, inv.2, key s' inv.1 inv.2⟩

/-- **C84 fails** for the benchmarks without saving: whatever they held, `rax` becomes the pointer
and `rcx` another word, of which the compiler is not told. -/
theorem C84_refuted {g : W} {s : State} (h : MicroArea g s) (hr : Sep (s.regs .rsp + 16) 8 g 16)
    (hd : s.regs .rax ≠ g + 8) :
    (∃ s', Exits microPushBare s s' ∧ s'.regs .rax ≠ s.regs .rax) ∧
    (∃ s', Exits microPopBare s s' ∧ s'.regs .rax ≠ s.regs .rax) := by
  constructor
  · obtain ⟨s', -, e, -, -, he⟩ := micro_push_mid microPushBare [] h
    exact ⟨s', he _ (ends_nil _ _), by rw [e]; exact fun c => hd c.symm⟩
  · obtain ⟨s', -, e, -, -, he⟩ := micro_pop_mid microPopBare [] h hr
    exact ⟨s', he _ (ends_nil _ _), by rw [e]; exact fun c => hd c.symm⟩

/-- After `cmp`, the sign flag and the overflow flag differ if and only if the first operand is smaller as a signed number. -/
theorem cmpFlags_less (a b : W) : (cmpFlags a b).getLsbD 7 ≠ (cmpFlags a b).getLsbD 11 ↔ a.toInt < b.toInt := by
  have bits : ∀ cf pf af zf sf of : Bool, (mkFlags cf pf af zf sf of).getLsbD 7 = sf ∧
      (mkFlags cf pf af zf sf of).getLsbD 11 = of := by decide +kernel
  have := bits (decide (a.toNat < b.toNat)) (parity (a - b)) (decide (a.toNat % 16 < b.toNat % 16)) (decide (a = b))
    (a - b).msb (a.msb != b.msb && (a - b).msb != a.msb)
  rw [cmpFlags, this.1, this.2]
  simp only [BitVec.msb_eq_decide, BitVec.toInt_eq_toNat_cond, BitVec.toNat_sub]
  have ha := a.isLt
  have hb := b.isLt
  by_cases h1 : 2 ^ 63 ≤ a.toNat <;> by_cases h2 : 2 ^ 63 ≤ b.toNat <;>
    by_cases h3 : 2 ^ 63 ≤ (2 ^ 64 - b.toNat + a.toNat) % 2 ^ 64 <;> simp [h1, h2, h3] <;> omega

/-- The conditional push goes on if and only if `jl` jumps with the flags that `cmp` leaves. -/
theorem C84_conditional_flags (s : State) :
    (∀ s', microCond s = some s' → s'.flags.getLsbD 7 ≠ s'.flags.getLsbD 11) ∧
    (microCond s = none → (cmpFlags (s.regs .rdi) (s.regs .rsp)).getLsbD 7 =
      (cmpFlags (s.regs .rdi) (s.regs .rsp)).getLsbD 11) := by
  constructor
  · intro s' h
    simp only [microCond] at h
    split at h
    · rename_i h1
      cases h
      exact (cmpFlags_less _ _).mpr (BitVec.slt_iff_toInt_lt.mp h1)
    · cases h
  · intro h
    simp only [microCond] at h
    split at h
    · cases h
    · rename_i h1
      rw [BitVec.slt_iff_toInt_lt, ← cmpFlags_less] at h1
      exact Decidable.not_not.mp h1

/-- **C84 fails** for the conditional push: it never records anything.  With 0 in `rdi`, as the benchmark begins, and a stack
in the lower half of the address space it goes on with nothing but the flags changed; otherwise it may trap. -/
theorem C84_refuted_conditional (s : State) :
    (∀ s', microCond s = some s' → s'.mem = s.mem ∧ s'.regs = s.regs ∧ s'.gs = s.gs) ∧
    (s.regs .rdi = 0 → 0 < (s.regs .rsp).toNat → (s.regs .rsp).toNat < 2 ^ 63 → ∃ s', microCond s = some s') ∧
    (s.regs .rdi = s.regs .rsp → microCond s = none) := by
  refine ⟨fun s' h => ?_, fun h0 h1 h2 => ?_, fun h => ?_⟩
  · simp only [microCond] at h
    split at h
    · cases h; exact ⟨rfl, rfl, rfl⟩
    · cases h
  · refine ⟨_, if_pos ?_⟩
    rw [h0, BitVec.slt_iff_toInt_lt, BitVec.toInt_eq_toNat_of_lt (x := s.regs .rsp) (by omega)]
    rw [show (0 : W).toInt = 0 from rfl]
    omega
  · rw [microCond, h, if_neg]
    simp [BitVec.slt_iff_toInt_lt]

/-- So after any number of iterations the area is as the other code has left it. -/
theorem C84_refuted_conditional_loop {other : State → State → Prop} {x : W}
    (ho : ∀ s t, other s t → t.mem x = s.mem x) {s s' : State} (h : MicroCondLoop other s s') : s'.mem x = s.mem x := by
  induction h with
  | done => rfl
  | step _ hc hot ih => rw [ho _ _ hot, ((C84_refuted_conditional _).1 _ hc).1, ih]

/-- A state with the area at 0x10000 and the stack elsewhere. -/
def microState : State where
  regs r := if r = .rsp then 0x7000 else 0
  flags := 0
  gs := 0x10000
  mem := Mem.write64 (fun _ => 0) 0x10000 0x10008

/-- Example for `C84_refuted_conditional`. -/
example : (microState.regs .rdi = 0 ∧ 0 < (microState.regs .rsp).toNat ∧ (microState.regs .rsp).toNat < 2 ^ 63) ∧
    (microState.set .rdi 0x7000).regs .rdi = (microState.set .rdi 0x7000).regs .rsp := by decide

/-- Example for `C84_push`, `C84_pop` and `C84_refuted`. -/
example : MicroArea 0x10000 microState ∧ Sep (microState.regs .rsp - 16) 16 0x10000 16 ∧
    Sep (microState.regs .rsp) 8 0x10000 16 ∧ Sep (microState.regs .rsp + 16) 8 0x10000 16 ∧
    microState.regs .rax ≠ 0x10000 + 8 := by
  refine ⟨⟨rfl, read64_write64 _ _ _⟩, ?_, ?_, ?_, by decide⟩ <;>
  · rw [sep_iff (by decide) (by decide)]
    decide

end Verif
