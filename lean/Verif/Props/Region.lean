import Verif.Props.Honest

/-! C14, C16, C17: the thread's shadow region. -/

namespace Verif

/-! ## C14 -/

/-- C14.  After initialisation the region holds nothing: the shadow pointer is 32 bytes
above the base, both guard words and the scratch word are zero, the scratch word is
disjoint from the guard words, and no memory outside the first 32 bytes changed. -/
theorem C14_init_empty {addr : W} {s s' : State} (h : initStack true addr s = some s') :
    Recorded addr [] s' ∧ s'.entry 1 = 0 ∧ s'.mem.read64 (addr + 8) = 0 ∧
      Sep (addr + 8) 8 (addr + 16) 16 ∧ s'.regs = s.regs ∧
      ∀ x, ¬ InRange x addr 32 → s'.mem x = s.mem x := by
  simp only [initStack, if_true, Option.some.injEq] at h
  subst h
  have e16 : addr + 8 + 8 = addr + 16 := by bv_omega
  have e24 : addr + 8 + 8 + 8 = addr + 24 := by bv_omega
  have e32 : addr + 8 + 8 + 8 + 8 = addr + 32 := by bv_omega
  rw [e24, e16, show addr + 24 + 8 = addr + 32 by bv_omega]
  have sep : ∀ a b : Nat, a + 8 ≤ 64 → b + 8 ≤ 64 → a + 8 ≤ b ∨ b + 8 ≤ a →
      Sep (addr + BitVec.ofNat 64 a) 8 (addr + BitVec.ofNat 64 b) 8 := by
    intro a b ha hb hab
    have hr : regionSize = 8388608 := rfl
    exact sep_offsets addr (by omega) (by omega) hab (by decide) (by decide)
  have s0 : ∀ b : Nat, 8 ≤ b → b + 8 ≤ 64 → Sep addr 8 (addr + BitVec.ofNat 64 b) 8 := by
    intro b h1 h2
    have := sep 0 b (by decide) h2 (Or.inl h1)
    rwa [gs_zero] at this
  have p8 : Sep (addr + 8) 8 addr 8 := (s0 8 (by decide) (by decide)).symm
  have p16 : Sep (addr + 16) 8 addr 8 := (s0 16 (by decide) (by decide)).symm
  have p24 : Sep (addr + 24) 8 addr 8 := (s0 24 (by decide) (by decide)).symm
  have q1 : Sep (addr + 8) 8 (addr + 24) 8 := sep 8 24 (by decide) (by decide) (by decide)
  have q2 : Sep (addr + 8) 8 (addr + 16) 8 := sep 8 16 (by decide) (by decide) (by decide)
  have q3 : Sep (addr + 16) 8 (addr + 24) 8 := sep 16 24 (by decide) (by decide) (by decide)
  let m := (((s.mem.write64 (addr + 8) 0).write64 (addr + 16) 0).write64 (addr + 24) 0).write64
    addr (addr + 32)
  have m8 : m.read64 (addr + 8) = 0 := by
    simp only [m]
    rw [read64_write64_sep _ _ _ _ p8, read64_write64_sep _ _ _ _ q1,
      read64_write64_sep _ _ _ _ q2, read64_write64]
  have m16 : m.read64 (addr + 16) = 0 := by
    simp only [m]
    rw [read64_write64_sep _ _ _ _ p16, read64_write64_sep _ _ _ _ q3, read64_write64]
  have m24 : m.read64 (addr + 24) = 0 := by
    simp only [m]
    rw [read64_write64_sep _ _ _ _ p24, read64_write64]
  have m0 : m.read64 addr = addr + 32 := read64_write64 _ _ _
  have sh : State.shadow { s with gs := addr, mem := m } = addr + 32 := m0
  refine ⟨⟨rfl, ?_, ⟨fun i hi => absurd hi (Nat.not_lt_zero i), ?_⟩, m16, by decide⟩, ?_, m8, ?_,
    rfl, ?_⟩
  · rw [sh]; rfl
  · rw [State.entry, sh]
    have : addr + 32 - BitVec.ofNat 64 (8 * (([] : List W).length + 1)) = addr + 24 := by
      simp only [List.length_nil]; bv_omega
    rw [this]; exact m24
  · rw [State.entry, sh]
    have : addr + 32 - BitVec.ofNat 64 (8 * (1 + 1)) = addr + 16 := by bv_omega
    rw [this]; exact m16
  · exact sep_offsets addr (a := 8) (n := 8) (b := 16) (m := 16) (by decide) (by decide)
      (Or.inl (by decide)) (by decide) (by decide)
  · intro x hx
    have sub : ∀ b : Nat, b + 8 ≤ 32 → ¬ InRange x (addr + BitVec.ofNat 64 b) 8 := by
      intro b hb hc
      refine hx (inRange_sub hc ?_)
      rw [off_toNat (by omega)]; exact hb
    have h0 := sub 0 (by decide)
    rw [gs_zero] at h0
    show m x = s.mem x
    show Mem.write64 _ _ _ x = _
    have h8 : ¬ InRange x (addr + 8) 8 := sub 8 (by decide)
    have h16 : ¬ InRange x (addr + 16) 8 := sub 16 (by decide)
    have h24 : ¬ InRange x (addr + 24) 8 := sub 24 (by decide)
    rw [write64_outRange _ _ _ _ h0, write64_outRange _ _ _ _ h24,
      write64_outRange _ _ _ _ h16, write64_outRange _ _ _ _ h8]

/-- C14.  If the base of the area cannot be set the program is aborted. -/
theorem C14_init_failure (addr : W) (s : State) : initStack false addr s = none := rfl

/-- C14.  A check on a region which holds nothing raises SIGILL for every return address
other than zero. -/
theorem C14_empty_check_traps {addr : W} {s : State} (h : Recorded addr [] s) {code : Code}
    {d : Int} {n : Nat} {free : Reg → Prop} (hc : IsCheck code d n free)
    (ha : Apart addr (s.retAddr d) n s) (h0 : s.mem.read64 (s.retAddr d) ≠ 0) : Traps code s := by
  have := hc.run h.holds (h.checkSep ha)
  rw [scan_missing (ret := s.mem.read64 (s.regs .rsp + BitVec.ofInt 64 d)) h0 (by simp)] at this
  exact this

/-- C14 applied to a concrete memory full of ones. -/
example : ∃ s' code, initStack true 0x100000
      { regs := fun _ => 0x7000, flags := 2, gs := 0, mem := fun _ => 0xff } = some s' ∧
    Traps code s' := by
  obtain ⟨code, free, hc⟩ := default_isCheck
  refine ⟨_, code, rfl, C14_empty_check_traps (C14_init_empty rfl).1 hc (sample_apart _ rfl) ?_⟩
  decide

/-! ## C16 -/

/-- C16.  In every situation a thread can get into, at most 1048572 addresses are
recorded, and there is room for another one exactly if there are fewer. -/
theorem C16_depth_bound {g : W} {s : State} (h : Recorded g [] s) {s1 : State} {p : List W}
    {leaf : Option (Reg × W)} (hr : HonestRun g (.run s [] none) (.run s1 p leaf)) :
    ∃ l, Recorded g l s1 ∧ l.length ≤ 1048572 ∧ (HasRoom g s1 ↔ l.length < 1048572) := by
  have : (Conf.run s [] none).Good g := ⟨⟨[], h, List.Sublist.slnil, by simp⟩, by simp⟩
  obtain ⟨⟨l, h1, _, _⟩, _⟩ := this.run hr
  have hroom := h1.room
  have hr : regionSize = 8388608 := rfl
  refine ⟨l, h1, by omega, ?_⟩
  rw [h1.hasRoom]; omega

/-- C16.  All 1048572 entries can be used: any number of nested calls up to it can be
recorded. -/
theorem C16_capacity_usable {g : W} {s : State} (h : Recorded g [] s) {code : Code} {d : Int}
    {n : Nat} {free : Reg → Prop} (hc : IsPush code d n free) (ha : Apart g (s.retAddr d) n s)
    (hg : ¬ GuardLike (s.mem.read64 (s.retAddr d))) (k : Nat) (hk : k ≤ 1048572) :
    ∃ s1 l, HonestRun g (.run s [] none) (.run s1 l none) ∧ l.length = k ∧ Recorded g l s1 := by
  have key : ∀ k, k ≤ 1048572 → ∃ s1 l, HonestRun g (.run s [] none) (.run s1 l none) ∧
      l.length = k ∧ Recorded g l s1 ∧ s1.regs .rsp = s.regs .rsp ∧
      s1.mem.read64 (s.retAddr d) = s.mem.read64 (s.retAddr d) := by
    intro k
    induction k with
    | zero => intro _; exact ⟨s, [], .refl, rfl, h, rfl, rfl⟩
    | succ k ih =>
      intro hk
      obtain ⟨s1, l, hrun, hlen, hrec, hsp, hm⟩ := ih (by omega)
      have ea : s1.retAddr d = s.retAddr d := by rw [State.retAddr, hsp]; rfl
      have hr : regionSize = 8388608 := rfl
      obtain ⟨s2, st, r2, sp2, m2⟩ := call_again (p := l) hc hrec
        ⟨by rw [ea]; exact ha.ret, by rw [hsp]; exact ha.save,
          by rw [ea, hsp]; exact ha.ret_save⟩ (by omega) (by rw [ea, hm]; exact hg)
      refine ⟨s2, _, hrun.step st, by simp [hlen], r2, sp2.trans hsp, ?_⟩
      rw [← ea, m2, ea, hm]
  obtain ⟨s1, l, h1, h2, h3, _⟩ := key k hk
  exact ⟨s1, l, h1, h2, h3⟩

/-- C16.  As long as there is room, snippets write only inside the region and in the save
area below the stack pointer. -/
theorem C16_writes_inside {g : W} {l : List W} {s s' : State} (h : Recorded g l s) {code : Code}
    {d : Int} {n : Nat} {free : Reg → Prop} (ha : Apart g (s.retAddr d) n s)
    (hc : (IsPush code d n free ∧ l.length < 1048572) ∨ IsCheck code d n free)
    (hx : Exits code s s') (x : W) (hd : s'.mem x ≠ s.mem x) :
    InRange x g regionSize ∨ InRange x (s.regs .rsp - BitVec.ofNat 64 n) n := by
  have hr : regionSize = 8388608 := rfl
  have hroom := h.room
  by_cases h1 : InRange x g regionSize
  · exact Or.inl h1
  by_cases h2 : InRange x (s.regs .rsp - BitVec.ofNat 64 n) n
  · exact Or.inr h2
  exfalso
  apply hd
  have hg8 : ¬ InRange x s.gs 8 := by
    rw [h.gs]; intro hc; exact h1 (inRange_sub hc (by rw [BitVec.sub_self]; decide))
  rcases hc with ⟨hc, hlt⟩ | hc
  · have hroom' : 32 + 8 * l.length + 8 ≤ regionSize := by omega
    obtain ⟨s'', hx', hp⟩ := hc.run (h.pushSep ha hroom')
    obtain rfl := hx.det hx'
    refine hp.same.mem x ?_
    intro q hq
    simp only [List.mem_cons, List.not_mem_nil, or_false] at hq
    rcases hq with rfl | rfl | rfl
    · intro hc; apply h1
      rw [h.pointer] at hc
      refine inRange_sub hc ?_
      rw [off_toNat (by omega)]; exact hroom'
    · exact hg8
    · exact h2
  · have := hc.run h.holds (h.checkSep ha)
    split at this
    · obtain ⟨s'', hx', hk⟩ := this
      obtain rfl := hx.det hx'
      refine hk.same.mem x ?_
      intro q hq
      simp only [List.mem_cons, List.not_mem_nil, or_false] at hq
      rcases hq with rfl | rfl
      · exact hg8
      · exact h2
    · exact absurd this hx.not_traps

/-- C16.  The next push is not stopped: it stores the return address into the eight bytes
just behind the region. -/
theorem C16_overflow {g : W} {l : List W} {s : State} (h : Recorded g l s)
    (hfull : l.length = 1048572) {code : Code} {d : Int} {n : Nat} {free : Reg → Prop}
    (hc : IsPush code d n free) (ha : Apart g (s.retAddr d) n s)
    (hs : Sep (g + 8388608) 8 (s.regs .rsp - BitVec.ofNat 64 n) n) :
    ∃ s', Exits code s s' ∧ s'.mem.read64 (g + 8388608) = s.mem.read64 (s.retAddr d) ∧
      Sep (g + 8388608) 8 g regionSize := by
  have hr : regionSize = 8388608 := rfl
  have hp : s.shadow = g + 8388608 := by
    rw [h.pointer, hfull]; rfl
  have sep : Sep (g + 8388608) 8 g regionSize := by
    rw [sep_iff (by decide) (by decide)]
    have e1 : g - (g + 8388608) = -8388608#64 := by bv_omega
    have e2 : g + 8388608 - g = 8388608#64 := by bv_omega
    rw [e1, e2]; decide
  have sep0 := sep_mono sep (Nat.le_refl _) (m' := 8) (by omega)
  obtain ⟨s', hx, hp'⟩ := hc.run (s := s) ⟨by rw [hp, h.gs]; exact sep0, ha.ret_save,
    by rw [hp]; exact hs, (h.checkSep ha).gs_save⟩
  exact ⟨s', hx, by rw [← hp]; exact hp'.recorded, sep⟩

/-- The bound is met from the sample state: a full region is reachable. -/
example : ∃ s1 l, HonestRun 0x100000 (.run (sampleState 0x401000 []) [] none) (.run s1 l none) ∧
    l.length = 1048572 ∧ Recorded 0x100000 l s1 := by
  obtain ⟨code, free, hc⟩ := default_isPush
  refine C16_capacity_usable sample_recorded hc (sample_apart _ rfl) ?_ _ (Nat.le_refl _)
  decide

/-! ## C17 -/

/-- C17, the runtime's layout: saving the frame register in the scratch word leaves the
recorded addresses and both guard words as they are. -/
theorem C17_runtime_layout {g : W} {l : List W} {s s' : State} (h : Recorded g l s) {code : Code}
    {reg : Reg} {d : Int} (hc : IsRegPush code reg d)
    (hs : Sep (s.retAddr d) 8 g regionSize) (hx : Exits code s s') :
    Recorded g l s' ∧ s'.mem.read64 (g + 8) = s.regs reg ∧
      s'.mem.read64 (g + 16) = 0 ∧ s'.mem.read64 (g + 24) = 0 := by
  obtain rfl := hx.det (hc.run (Apart.enter h.gs hs))
  have hr := h.regPushed reg d
  refine ⟨hr, ?_, hr.guard, ?_⟩
  · show (s.mem.write64 (s.gs + 8) _).read64 _ = _
    rw [h.gs]; exact read64_write64 _ _ _
  · have := hr.holds.guard
    rw [State.entry, hr.slot (Nat.le_refl _)] at this
    simpa using this

/-- C17, negation for the generator's layout: the first register frame replaces the only
guard word by the value of the frame register, whatever the region and the value. -/
theorem C17_generated_guard_lost {addr : W} {s s1 : State}
    (h : initGenerated false true addr s = some s1) {code : Code} {reg : Reg} {d : Int}
    (hc : IsRegPush code reg d) (hs : Sep (s1.retAddr d) 8 addr 16) :
    s1.Holds [] ∧ ∃ s2, Exits code s1 s2 ∧ s2.entry 0 = s1.regs reg ∧
      s2.shadow = addr + 16 ∧ s2.gs = addr ∧ s2.regs .rsp = s1.regs .rsp := by
  simp only [initGenerated, if_true, Option.some.injEq, Bool.false_eq_true, if_false] at h
  have e16 : addr + 8 + 8 = addr + 16 := by bv_omega
  rw [e16] at h
  have s08 : Sep addr 8 (addr + 8) 8 := by
    have := sep_offsets addr (a := 0) (n := 8) (b := 8) (m := 8) (by decide) (by decide)
      (Or.inl (by decide)) (by decide) (by decide)
    rwa [gs_zero] at this
  have hgs : s1.gs = addr := by subst h; rfl
  have hsh : s1.shadow = addr + 16 := by
    subst h; exact read64_write64 _ _ _
  have e8 : ∀ q : W, q = addr + 16 → q - BitVec.ofNat 64 (8 * (0 + 1)) = addr + 8 := by
    intro q hq; rw [hq]; bv_omega
  have hret : Sep (s1.retAddr d) 8 (s1.gs + 8) 8 := by
    rw [hgs]
    refine sep_sub_right hs ?_
    have : addr + 8 - addr = 8#64 := by bv_omega
    rw [this]; decide
  have hnot : reg ≠ .rsp := by
    obtain ⟨_, _, _, hr, _⟩ := hc; exact hr.notSp
  refine ⟨⟨fun i hi => absurd hi (Nat.not_lt_zero i), ?_⟩, _, hc.run hret, ?_, ?_, hgs, ?_⟩
  · show s1.entry 0 = 0
    rw [State.entry, e8 _ hsh]
    subst h
    show Mem.read64 (Mem.write64 _ _ _) _ = _
    rw [read64_write64_sep _ _ _ _ s08.symm, read64_write64]
  · have : (regPushed reg d s1).shadow = addr + 16 := by
      rw [← hsh]
      show Mem.read64 (Mem.write64 _ _ _) s1.gs = s1.mem.read64 s1.gs
      rw [hgs]; exact read64_write64_sep _ _ _ _ s08
    rw [State.entry, e8 _ this]
    show Mem.read64 (Mem.write64 _ (s1.gs + 8) _) _ = _
    rw [hgs]; exact read64_write64 _ _ _
  · rw [← hsh]
    show Mem.read64 (Mem.write64 _ _ _) s1.gs = s1.mem.read64 s1.gs
    rw [hgs]; exact read64_write64_sep _ _ _ _ s08
  · simp [regPushed, State.set, hnot.symm]

/-- C17, consequence: with the generator's layout, after a register frame has been entered
a check accepts the value which the frame register had, although nothing is recorded. -/
theorem C17_generated_accepts_unrecorded {addr : W} {s s1 : State}
    (h : initGenerated false true addr s = some s1) {code : Code} {reg : Reg} {d : Int}
    (hc : IsRegPush code reg d) (hs : Sep (s1.retAddr d) 8 addr 16) {check : Code} {e : Int}
    {n : Nat} {free : Reg → Prop} (hk : IsCheck check e n free) :
    ∃ s2, Exits code s1 s2 ∧
      (s2.mem.read64 (s2.retAddr e) = s1.regs reg → CheckSep (s2.retAddr e) n 1 s2 →
        ∃ s3, Exits check s2 s3) := by
  obtain ⟨_, s2, hx, hent, hsh, hgs, _⟩ := C17_generated_guard_lost h hc hs
  refine ⟨s2, hx, fun hr hsep => ?_⟩
  obtain ⟨fl, sm, uo, bs, addr', mid, hf, hm, hok, hcode, rfl, rfl, rfl⟩ := hk
  obtain ⟨code', he, hrun⟩ := pop_correct hf hok
  have : code' = check := by
    have e : jitStackPop fl sm uo bs addr' = some code' := by
      unfold jitStackPop
      rw [if_neg hf.notEmpty, hm]
      exact he
    rw [e] at hcode
    exact Option.some.inj hcode
  subst this
  obtain ⟨s3, h3, _⟩ := (hrun s2 0 hsep (fun i hi => absurd hi (Nat.not_lt_zero i))).1
    (hent.trans hr.symm)
  exact ⟨s3, h3⟩

/-- C17 on a concrete state: the attacker controls rax = 0x7000 and the return address. -/
example : ∃ s1 code check s2 s3, initGenerated false true 0x100000
      { regs := fun _ => 0x7000, flags := 2, gs := 0, mem := memOf [(0x7000, 0x7000)] } = some s1 ∧
    s1.Holds [] ∧ IsRegPush code .rax 0 ∧ Exits code s1 s2 ∧ (∃ free, IsCheck check 0 16 free) ∧
    Exits check s2 s3 := by
  obtain ⟨check, free, hk⟩ := default_isCheck
  have hreg : RegChoice { unusedRegs := ["x86_64::rax"] } .rax := ⟨rfl, by decide⟩
  obtain ⟨code, hcode, _⟩ := regPush_exits (fl := {}) ⟨by decide, by decide, rfl⟩ hreg 0
  have hc : IsRegPush code .rax 0 := ⟨{}, _, ⟨by decide, by decide, rfl⟩, hreg, hcode⟩
  have hs : ∀ s1 : State, s1.regs = (fun _ => 0x7000) → Sep (s1.retAddr 0) 8 0x100000 16 := by
    intro s1 h; rw [State.retAddr, h]; exact sep_of_le (by decide) (by decide) (by decide)
  obtain ⟨s1, h1⟩ : ∃ s1, initGenerated false true 0x100000
      { regs := fun _ => 0x7000, flags := 2, gs := 0, mem := memOf [(0x7000, 0x7000)] } = some s1 :=
    ⟨_, rfl⟩
  have hregs : s1.regs = fun _ => 0x7000 := by rw [← Option.some.inj h1]
  obtain ⟨hh, s2, hx, _, hsh, hgs, hsp⟩ := C17_generated_guard_lost h1 hc (hs _ hregs)
  obtain ⟨s2', hx', himp⟩ := C17_generated_accepts_unrecorded h1 hc (hs _ hregs) hk
  obtain rfl := hx.det hx'
  have hsp' : s2.regs .rsp = 0x7000 := by rw [hsp, hregs]
  obtain ⟨s3, h3⟩ := himp (by
      obtain rfl := Option.some.inj h1
      obtain rfl := hx.det (hc.run (sep_of_le (by decide) (by decide) (by decide)))
      decide) (by
      refine ⟨?_, ?_, ?_, ?_, ?_⟩
      · rw [State.retAddr, hsp', hgs]; exact sep_of_le (by decide) (by decide) (by decide)
      · rw [State.retAddr, hsp']; exact sep_of_le (by decide) (by decide) (by decide)
      · rw [hsp', hgs]; exact sep_of_le (by decide) (by decide) (by decide)
      · intro i hi; rw [hsh, hgs]
        exact sep_of_le (by decide) (by decide) (by revert i; decide)
      · intro i hi; rw [hsh, hsp']
        exact sep_of_le (by decide) (by decide) (by revert i; decide))
  exact ⟨s1, code, check, s2, s3, h1, hh, hc, hx, ⟨free, hk⟩, h3⟩

end Verif
