import Verif.Windows
import Verif.Props.RefineExamples

/-!
# C116: other threads which overwrite return addresses while snippets run

The writers of `Raced` may change everything but the thread's region and the `n` bytes below its
stack pointer, where snippets save registers.  In particular they may change the return address,
at any time.
-/

namespace Verif

/-- A check which lets go while others write to memory at any time: there was a moment, that of its last comparison,
at which the slot of the return address held a recorded address, or 0, which is taken for the guard word.  From this moment on the
snippet does not look at the slot any more, and does not change it. -/
theorem C116_check_partial {code : Code} {d : Int} {n : Nat} {free : Reg → Prop}
    (hc : IsCheck code d n free) {g : W} {l : List W} {s : State} (h : Recorded g l s)
    (ha : Apart g (s.retAddr d) n s) {M : Nat → W → Prop}
    (hM : ∀ t x, M t x → ¬ InRange x g regionSize ∧ ¬ InRange x (s.regs .rsp - BitVec.ofNat 64 n) n)
    {te : Nat} {se : State} (hr : Raced M code 0 code s te [] se) :
    ∃ t1 km sm, t1 ≤ te ∧ Raced M code 0 code s t1 km sm ∧ Raced M code t1 km sm te [] se ∧
      ((∃ pre post, l = pre ++ sm.mem.read64 (s.retAddr d) :: post ∧ Recorded g post se) ∨
        (sm.mem.read64 (s.retAddr d) = 0 ∧ se.shadow = g + 24)) ∧
      ((∀ j, t1 ≤ j → j < te → ∀ x, InRange x (s.retAddr d) 8 → ¬ M j x) →
        se.mem.read64 (s.retAddr d) = sm.mem.read64 (s.retAddr d)) ∧
      se.gs = s.gs ∧ se.regs .rsp = s.regs .rsp ∧ ∀ r, ¬ free r → se.regs r = s.regs r := by
  obtain ⟨t1, km, sm, r⟩ := hc.raced h ha (fun t x hx => by
    rintro (hf | hf)
    · exact (hM t x hx).1 hf
    · exact (hM t x hx).2 hf) hr
  exact ⟨t1, km, sm, r.le, r.before, r.after, r.found, r.quiet, r.gs, r.rsp, r.regs⟩

/-- A push records what the slot holds at one moment.  This is the return address of the call,
unless others changed it before. -/
theorem C116_push_partial {code : Code} {d : Int} {n : Nat} {free : Reg → Prop}
    (hc : IsPush code d n free) {g : W} {l : List W} {s : State} (h : Recorded g l s)
    (ha : Apart g (s.retAddr d) n s) (hroom : 32 + 8 * l.length + 8 ≤ regionSize) {M : Nat → W → Prop}
    (hM : ∀ t x, M t x → ¬ InRange x g regionSize ∧ ¬ InRange x (s.regs .rsp - BitVec.ofNat 64 n) n)
    {te : Nat} {se : State} (hr : Raced M code 0 code s te [] se) :
    ∃ t1 km sm, Raced M code 0 code s t1 km sm ∧ Raced M code t1 km sm te [] se ∧
      Recorded g (sm.mem.read64 (s.retAddr d) :: l) se ∧
      ((∀ j, j < t1 → ∀ x, InRange x (s.retAddr d) 8 → ¬ M j x) →
        sm.mem.read64 (s.retAddr d) = s.mem.read64 (s.retAddr d)) ∧
      se.gs = s.gs ∧ se.flags = s.flags ∧ se.regs .rsp = s.regs .rsp ∧
      ∀ r, ¬ free r → se.regs r = s.regs r := by
  obtain ⟨t1, km, sm, r⟩ := hc.raced h ha hroom (fun t x hx => by
    rintro (hf | hf)
    · exact (hM t x hx).1 hf
    · exact (hM t x hx).2 hf) hr
  exact ⟨t1, km, sm, r.before, r.after, r.records, fun hq => r.quiet fun j _ h2 => hq j h2,
    r.gs, r.flags, r.rsp, r.regs⟩

/-- A register push keeps what the slot holds at one moment. -/
theorem C116_registerPush_partial {code : Code} {reg : Reg} {d : Int} (hc : IsRegPush code reg d)
    {g : W} {l : List W} {s : State} (h : Recorded g l s)
    (ha : Sep (s.regs .rsp + BitVec.ofInt 64 d) 8 g regionSize) {M : Nat → W → Prop}
    (hM : ∀ t x, M t x → ¬ InRange x g regionSize) {te : Nat} {se : State}
    (hr : Raced M code 0 code s te [] se) :
    ∃ t1 km sm, Raced M code 0 code s t1 km sm ∧ Raced M code t1 km sm te [] se ∧
      se.regs reg = sm.mem.read64 (s.regs .rsp + BitVec.ofInt 64 d) ∧ Recorded g l se ∧
      ((∀ j, j < t1 → ∀ x, InRange x (s.regs .rsp + BitVec.ofInt 64 d) 8 → ¬ M j x) →
        sm.mem.read64 (s.regs .rsp + BitVec.ofInt 64 d) = s.mem.read64 (s.regs .rsp + BitVec.ofInt 64 d)) ∧
      se.mem.read64 (g + 8) = s.regs reg ∧ se.gs = s.gs ∧ ∀ r, r ≠ reg → se.regs r = s.regs r := by
  obtain ⟨t1, km, sm, r⟩ := hc.raced h ha hM hr
  exact ⟨t1, km, sm, r.before, r.after, r.kept, r.recorded, fun hq => r.quiet fun j _ h2 => hq j h2,
    r.saved, r.gs, r.regs⟩

/-- A register pop which lets go: at one moment, after which it does not look at the slot any more,
the slot held what is in the register, or a recorded address, or 0. -/
theorem C116_registerPop_partial {code : Code} {reg : Reg} (hc : IsRegPop code reg) {g : W} {l : List W}
    {s : State} (h : Recorded g l s) (ha : Apart g (s.regs .rsp) 16 s) {M : Nat → W → Prop}
    (hM : ∀ t x, M t x → ¬ InRange x g regionSize ∧ ¬ InRange x (s.regs .rsp - BitVec.ofNat 64 16) 16)
    {te : Nat} {se : State} (hr : Raced M code 0 code s te [] se) :
    ∃ t1 km sm, t1 ≤ te ∧ Raced M code 0 code s t1 km sm ∧ Raced M code t1 km sm te [] se ∧
      ((sm.mem.read64 (s.regs .rsp) = s.regs reg ∧ Recorded g l se) ∨
        (∃ pre post, l = pre ++ sm.mem.read64 (s.regs .rsp) :: post ∧ Recorded g post se) ∨
        (sm.mem.read64 (s.regs .rsp) = 0 ∧ se.shadow = g + 24)) ∧
      ((∀ j, t1 ≤ j → j < te → ∀ x, InRange x (s.regs .rsp) 8 → ¬ M j x) →
        se.mem.read64 (s.regs .rsp) = sm.mem.read64 (s.regs .rsp)) ∧
      se.regs reg = s.mem.read64 (g + 8) ∧ se.gs = s.gs ∧ ∀ r, r ≠ reg → se.regs r = s.regs r := by
  obtain ⟨t1, km, sm, r⟩ := hc.raced h ha (fun t x hx => by
    rintro (hf | hf)
    · exact (hM t x hx).1 hf
    · exact (hM t x hx).2 hf) hr
  exact ⟨t1, km, sm, r.le, r.before, r.after, r.found, r.quiet, r.restored, r.gs, r.regs⟩

/-! ## Whole threads -/

/-- What a thread does from `s0` on, while others write to memory: `es` are the return addresses with
which protected functions have been entered, the newest first. Others leave the region alone, and
during snippets also the bytes where these save registers; during pushes they leave the return address alone. -/
inductive RacedRun (g : W) (s0 : State) : List W → State → Prop
  | start : RacedRun g s0 [] s0
  /-- instructions of the program, and whatever others do meanwhile -/
  | work {es s s'} : RacedRun g s0 es s → s'.gs = s.gs →
      (∀ x, InRange x g regionSize → s'.mem x = s.mem x) → RacedRun g s0 es s'
  /-- entry of a protected function -/
  | enter {es s s' code d n free M te} : RacedRun g s0 es s → IsPush code d n free →
      Apart g (s.retAddr d) n s → (s.shadow - g).toNat + 8 ≤ regionSize →
      (∀ t x, M t x → ¬ InRange x g regionSize ∧ ¬ InRange x (s.regs .rsp - BitVec.ofNat 64 n) n ∧
        ¬ InRange x (s.retAddr d) 8) →
      Raced M code 0 code s te [] s' → RacedRun g s0 (s.mem.read64 (s.retAddr d) :: es) s'
  /-- a check which lets go, and has not taken the guard word for a recorded address; others change the return address
  at any time -/
  | leave {es s s' code d n free M te} : RacedRun g s0 es s → IsCheck code d n free →
      Apart g (s.retAddr d) n s →
      (∀ t x, M t x → ¬ InRange x g regionSize ∧ ¬ InRange x (s.regs .rsp - BitVec.ofNat 64 n) n) →
      Raced M code 0 code s te [] s' → s'.shadow ≠ g + 24 → RacedRun g s0 es s'

  /-- a protected leaf function which keeps its return address in a register that its own instructions
  do not use -/
  | leaf {es s s1 s2 s' push pop reg d M N tp te} : RacedRun g s0 es s → IsRegPush push reg d →
      Sep (s.regs .rsp + BitVec.ofInt 64 d) 8 g regionSize →
      (∀ t x, M t x → ¬ InRange x g regionSize ∧ ¬ InRange x (s.regs .rsp + BitVec.ofInt 64 d) 8) →
      Raced M push 0 push s tp [] s1 → s2.gs = s1.gs →
      (∀ x, InRange x g regionSize → s2.mem x = s1.mem x) → s2.regs reg = s1.regs reg →
      IsRegPop pop reg → Apart g (s2.regs .rsp) 16 s2 →
      (∀ t x, N t x → ¬ InRange x g regionSize ∧ ¬ InRange x (s2.regs .rsp - BitVec.ofNat 64 16) 16) →
      Raced N pop 0 pop s2 te [] s' → s'.shadow ≠ g + 24 →
      RacedRun g s0 (s.mem.read64 (s.regs .rsp + BitVec.ofInt 64 d) :: es) s'

/-- What is recorded are return addresses of calls, in the order of the calls. -/
theorem C116_run_partial {g : W} {s0 s : State} {es : List W} (h0 : Recorded g [] s0)
    (h : RacedRun g s0 es s) : ∃ l, Recorded g l s ∧ l.Sublist es := by
  induction h with
  | start => exact ⟨[], h0, .slnil⟩
  | work _ hg hm ih =>
    obtain ⟨l, h1, h2⟩ := ih
    exact ⟨l, h1.stays hg hm, h2⟩
  | @enter es s s' code d n free M te _ hc ha hroom hM hr ih =>
    obtain ⟨l, h1, h2⟩ := ih
    have hroom' : 32 + 8 * l.length + 8 ≤ regionSize := by
      have := h1.room
      have hz : regionSize = 8388608 := rfl
      rw [h1.pointer, off_toNat (by omega)] at hroom
      exact hroom
    obtain ⟨t1, km, sm, _, _, r1, r2, _⟩ := C116_push_partial hc h1 ha hroom'
      (fun t x hx => ⟨(hM t x hx).1, (hM t x hx).2.1⟩) hr
    rw [r2 fun j _ x hx hm => (hM j x hm).2.2 hx] at r1
    exact ⟨_, r1, h2.cons_cons _⟩
  | @leave es s s' code d n free M te _ hc ha hM hr hz ih =>
    obtain ⟨l, h1, h2⟩ := ih
    obtain ⟨t1, km, sm, _, hb, _, hf, _⟩ := C116_check_partial hc h1 ha hM hr
    rcases hf with ⟨pre, post, e, hp⟩ | hf
    · refine ⟨post, hp, .trans ?_ h2⟩
      rw [e]
      exact (List.sublist_cons_self ..).trans (List.sublist_append_right pre _)
    · exact absurd hf.2 hz
  | @leaf es s s1 s2 s' push pop reg d M N tp te _ hc ha hM hr hg hm _ hp ha2 hN hr2 hz ih =>
    obtain ⟨l, h1, h2⟩ := ih
    obtain ⟨_, _, _, _, _, _, r1, _⟩ := C116_registerPush_partial hc h1 ha (fun t x hx => (hM t x hx).1) hr
    obtain ⟨_, _, _, _, _, _, hf, _⟩ := C116_registerPop_partial hp (r1.stays hg hm) ha2 hN hr2
    rcases hf with ⟨_, hf⟩ | ⟨pre, post, e, hf⟩ | hf
    · exact ⟨l, hf, h2.cons _⟩
    · refine ⟨post, hf, .cons _ (.trans ?_ h2)⟩
      rw [e]
      exact (List.sublist_cons_self ..).trans (List.sublist_append_right pre _)
    · exact absurd hf.2 hz

/-- So a return goes to the return address of a call, if nobody changes it between the last
comparison of its check and the return instruction. -/
theorem C116_return_partial {g : W} {s0 s : State} {es : List W} (h0 : Recorded g [] s0)
    (h : RacedRun g s0 es s) {code : Code} {d : Int} {n : Nat} {free : Reg → Prop}
    (hc : IsCheck code d n free) (ha : Apart g (s.retAddr d) n s) {M : Nat → W → Prop}
    (hM : ∀ t x, M t x → ¬ InRange x g regionSize ∧ ¬ InRange x (s.regs .rsp - BitVec.ofNat 64 n) n)
    {te : Nat} {se : State} (hr : Raced M code 0 code s te [] se) :
    ∃ t1 km sm, t1 ≤ te ∧ Raced M code 0 code s t1 km sm ∧ Raced M code t1 km sm te [] se ∧
      (sm.mem.read64 (s.retAddr d) ∈ es ∨ sm.mem.read64 (s.retAddr d) = 0) ∧
      ((∀ j, t1 ≤ j → j < te → ∀ x, InRange x (s.retAddr d) 8 → ¬ M j x) →
        se.mem.read64 (s.retAddr d) ∈ es ∨ se.mem.read64 (s.retAddr d) = 0) := by
  obtain ⟨l, h1, h2⟩ := C116_run_partial h0 h
  obtain ⟨t1, km, sm, hle, hb, hfa, hf, hq, _⟩ := C116_check_partial hc h1 ha hM hr
  have key : sm.mem.read64 (s.retAddr d) ∈ es ∨ sm.mem.read64 (s.retAddr d) = 0 := by
    rcases hf with ⟨pre, post, e, _⟩ | hf
    · exact Or.inl (h2.subset (by rw [e]; simp))
    · exact Or.inr hf.1
  refine ⟨t1, km, sm, hle, hb, hfa, key, fun hm => ?_⟩
  rw [hq hm]; exact key

/-- So does the return of a leaf function that keeps its return address in a register. -/
theorem C116_leafReturn_partial {g : W} {s0 s s1 s2 : State} {es : List W} (h0 : Recorded g [] s0)
    (h : RacedRun g s0 es s) {push pop : Code} {reg : Reg} {d : Int} (hc : IsRegPush push reg d)
    (ha : Sep (s.regs .rsp + BitVec.ofInt 64 d) 8 g regionSize) {M N : Nat → W → Prop}
    (hM : ∀ t x, M t x → ¬ InRange x g regionSize ∧ ¬ InRange x (s.regs .rsp + BitVec.ofInt 64 d) 8)
    {tp : Nat} (hr : Raced M push 0 push s tp [] s1)
    -- the body, which does not use the register, while others do anything to the memory outside the region
    (hg : s2.gs = s1.gs) (hm : ∀ x, InRange x g regionSize → s2.mem x = s1.mem x)
    (hk : s2.regs reg = s1.regs reg)
    (hp : IsRegPop pop reg) (ha2 : Apart g (s2.regs .rsp) 16 s2)
    (hN : ∀ t x, N t x → ¬ InRange x g regionSize ∧ ¬ InRange x (s2.regs .rsp - BitVec.ofNat 64 16) 16)
    {te : Nat} {se : State} (hr2 : Raced N pop 0 pop s2 te [] se) :
    ∃ t1 km sm, t1 ≤ te ∧ Raced N pop 0 pop s2 t1 km sm ∧ Raced N pop t1 km sm te [] se ∧
      (sm.mem.read64 (s2.regs .rsp) ∈ s.mem.read64 (s.regs .rsp + BitVec.ofInt 64 d) :: es ∨
        sm.mem.read64 (s2.regs .rsp) = 0) ∧
      ((∀ j, t1 ≤ j → j < te → ∀ x, InRange x (s2.regs .rsp) 8 → ¬ N j x) →
        se.mem.read64 (s2.regs .rsp) ∈ s.mem.read64 (s.regs .rsp + BitVec.ofInt 64 d) :: es ∨
        se.mem.read64 (s2.regs .rsp) = 0) ∧ se.regs reg = s.regs reg := by
  obtain ⟨l, h1, h2⟩ := C116_run_partial h0 h
  obtain ⟨_, _, sk, _, _, r0, r1, r2, r3, _⟩ :=
    C116_registerPush_partial hc h1 ha (fun t x hx => (hM t x hx).1) hr
  rw [r2 fun j _ x hx hmm => (hM j x hmm).2 hx] at r0
  obtain ⟨t1, km, sm, hle, hb, hfa, hf, hq, hres, _⟩ := C116_registerPop_partial hp (r1.stays hg hm) ha2 hN hr2
  have key : sm.mem.read64 (s2.regs .rsp) ∈ s.mem.read64 (s.regs .rsp + BitVec.ofInt 64 d) :: es ∨
      sm.mem.read64 (s2.regs .rsp) = 0 := by
    rcases hf with ⟨hf, _⟩ | ⟨pre, post, e, _⟩ | hf
    · rw [hf, hk, r0]; simp
    · exact Or.inl (List.mem_cons_of_mem _ (h2.subset (by rw [e]; simp)))
    · exact Or.inr hf.1
  refine ⟨t1, km, sm, hle, hb, hfa, key, fun hmm => by rw [hq hmm]; exact key, ?_⟩
  rw [hres, ← r3]
  refine read64_eq _ _ _ fun x hx => hm x (inRange_sub hx (by
    have : g + 8 - g = 8#64 := by bv_omega
    rw [this]; decide))

/-! ## The two windows -/

theorem Path.raced {F : W → Prop} {w k k' : Code} {s s' : State} (h : Path F w k s k' s') (M : Nat → W → Prop) :
    ∀ t, ∃ te, Raced M w t k s te k' s' := by
  induction h with
  | refl => exact fun t => ⟨t, .refl⟩
  | step _ hg _ ih =>
    intro t
    obtain ⟨te, h⟩ := ih (t + 1)
    exact ⟨te, .instr hg h⟩

theorem exits_raced {code : Code} {s s' : State} (hx : Exits code s s') (M : Nat → W → Prop) (t : Nat)
    {F : W → Prop} (hw : Within F code code s) : ∃ te, Raced M code t code s te [] s' := by
  obtain ⟨n, hn⟩ := (exits_iff ..).1 hx
  cases hw with
  | exits s1 hp =>
    obtain ⟨m, hm⟩ := hp.ends (ends_nil _ _)
    have := run_det hn hm
    injection this with this
    subst this
    exact hp.raced M t
  | traps k' s1 hp =>
    obtain ⟨m, hm⟩ := hp.ends (o := .trap s1) ⟨1, rfl⟩
    have := run_det hn hm
    injection this

/-- Writers which change nothing but the return address. -/
def OnlySlot (R : W) : Nat → W → Prop := fun _ x => InRange x R 8

/-- Every check has a window: whatever it accepts, the return may go anywhere. -/
theorem C116_window_check {code : Code} {d : Int} {n : Nat} {free : Reg → Prop}
    (hc : IsCheck code d n free) {g : W} {l : List W} {s s' : State} (h : Recorded g l s)
    (ha : Apart g (s.retAddr d) n s) (hx : Exits code s s') (v : W) :
    ∃ te se, Raced (OnlySlot (s.retAddr d)) code 0 code s te [] se ∧
      se.mem.read64 (s.retAddr d) = v ∧ se.regs = s'.regs := by
  obtain ⟨te, hr⟩ := exits_raced hx (OnlySlot (s.retAddr d)) 0 (hc.within h ha)
  exact ⟨te + 1, _, hr.trans (.other (m := s'.mem.write64 (s.retAddr d) v)
    (fun x hx => write64_outRange _ _ _ _ hx) .refl), read64_write64 .., rfl⟩

/-- Every push has a window: it may be made to record anything, and nobody sees it. -/
theorem C116_window_push {code : Code} {d : Int} {n : Nat} {free : Reg → Prop}
    (hc : IsPush code d n free) {g : W} {l : List W} {s : State} (h : Recorded g l s)
    (ha : Apart g (s.retAddr d) n s) (hroom : 32 + 8 * l.length + 8 ≤ regionSize) (v : W) :
    ∃ te se, Raced (OnlySlot (s.retAddr d)) code 0 code s te [] se ∧ Recorded g (v :: l) se ∧
      se.mem.read64 (s.retAddr d) = s.mem.read64 (s.retAddr d) := by
  let s1 : State := { s with mem := s.mem.write64 (s.retAddr d) v }
  have hss : AgreeOn (RaceFoot g (s.regs .rsp) n) s s1 :=
    ⟨rfl, rfl, rfl, fun x hx => write64_outRange _ _ _ _ fun hR => ha.notFoot hR hx⟩
  have h1 : Recorded g l s1 := h.agree hss fun x hx => Or.inl hx
  have ha1 : Apart g (s1.retAddr d) n s1 := ⟨ha.ret, ha.save, ha.ret_save⟩
  obtain ⟨s2, hx, hp⟩ := hc.run (s := s1) (h1.pushSep ha1 hroom)
  obtain ⟨te, hr⟩ := exits_raced hx (OnlySlot (s.retAddr d)) 1 (hc.within h1 ha1 hroom)
  have hrec := h1.push ha1 hroom hp
  rw [show s1.mem.read64 (s1.retAddr d) = v from read64_write64 ..] at hrec
  have e2 : s2.regs .rsp = s.regs .rsp := hp.same.rsp
  refine ⟨te + 1, { s2 with mem := s2.mem.write64 (s.retAddr d) (s.mem.read64 (s.retAddr d)) },
    .other (m := s1.mem) (fun _ hx => write64_outRange _ _ _ _ hx) (hr.trans (.other
      (fun _ hx => write64_outRange _ _ _ _ hx) .refl)), ?_, read64_write64 ..⟩
  exact hrec.agree (F := RaceFoot g (s.regs .rsp) n) ⟨rfl, rfl, rfl, fun x hx =>
    write64_outRange _ _ _ _ fun hR => ha.notFoot hR hx⟩ fun _ hx => Or.inl hx

/-! ## A concrete execution -/

theorem crun_raced {g : W} {w : Code} (M : Nat → W → Prop) : ∀ {n t : Nat} {k k' : Code} {c c' : LogState},
    crun g w n k c = some (k', c') → Raced M w t k c.state (t + n) k' c'.state
  | 0, t, k, k', c, c', e => by
    simp only [crun, Option.some.injEq, Prod.mk.injEq] at e
    obtain ⟨rfl, rfl⟩ := e
    exact .refl
  | n + 1, t, [], _, _, _, e => by simp [crun] at e
  | n + 1, t, i :: k, k', c, c', e => by
    have ht : t + (n + 1) = (t + 1) + n := by omega
    rw [ht]
    simp only [crun] at e
    split at e
    · split at e
      · next c1 h1 => exact .instr (.next (cexec_exec h1)) (crun_raced M e)
      · next l c1 h1 =>
        split at e
        · next k1 h2 => exact .instr (.goto (cexec_exec h1) h2) (crun_raced M e)
        · simp at e
      · simp at e
    · simp at e

/-- Another thread writes `v` to the slot. -/
def hit (v : W) (c : LogState) : LogState := { c with log := (0x7000, v) :: c.log }

theorem hit_raced {w k : Code} {t : Nat} (v : W) (c : LogState) :
    Raced (OnlySlot 0x7000) w t k c.state (t + 1) k (hit v c).state :=
  .other (m := (hit v c).state.mem) (fun _ hx => write64_outRange _ _ _ _ hx) .refl

/-- 0x401000 is recorded, and the return address has been overwritten with 0xBAD000. -/
def blink0 : LogState := ⟨[(.rsp, 0x7000), (.r10, 7), (.r11, 8)], 0x246, sigBase,
  [(0x7000, 0xBAD000), (0x100000, 0x100028), (0x100020, 0x401000)]⟩

/-- The comparison comes next. -/
def blink1 : LogState := after demoCheck 7 demoCheck blink0

/-- It has been made, with the address which another thread has put there for this moment. -/
def blink2 : LogState := after demoCheck 1 (demoCheck.drop 7) (hit 0x401000 blink1)

/-- The check is over. -/
def blink3 : LogState := after demoCheck 3 (demoCheck.drop 8) (hit 0xBAD000 blink2)

theorem blink_recorded : Recorded sigBase [0x401000] blink0.state where
  gs := rfl
  pointer := cread_read (a := 0x100000) (l := blink0.log) (by decide)
  holds := ⟨fun i h => by
      obtain rfl : i = 0 := by simp at h; exact h
      exact cread_read (a := 0x100020) (l := blink0.log) (v := 0x401000) (by decide), by decide +kernel⟩
  guard := cread_read (a := 0x100010) (l := blink0.log) (by decide)
  room := by decide

theorem blink_run : Raced (OnlySlot 0x7000) demoCheck 0 demoCheck blink0.state 13 [] blink3.state := by
  have e1 := after_crun (w := demoCheck) (k := demoCheck) (k' := demoCheck.drop 7) (n := 7) (c := blink0)
    (by decide +kernel)
  have e2 := after_crun (w := demoCheck) (k := demoCheck.drop 7) (k' := demoCheck.drop 8) (n := 1)
    (c := hit 0x401000 blink1) (by decide +kernel)
  have e3 := after_crun (w := demoCheck) (k := demoCheck.drop 8) (k' := []) (n := 3)
    (c := hit 0xBAD000 blink2) (by decide +kernel)
  exact (crun_raced _ e1).trans ((hit_raced _ _).trans ((crun_raced _ e2).trans ((hit_raced _ _).trans
    (crun_raced _ e3))))

/-- C116 does not hold: the return address was overwritten before the check, the check lets go, and the
return goes to the address which the attacker chose.  Alone the check stops the program. -/
theorem C116_refuted_check : (∃ free, IsCheck demoCheck 0 16 free) ∧ Recorded sigBase [0x401000] blink0.state ∧
    Apart sigBase (blink0.state.retAddr 0) 16 blink0.state ∧
    Raced (OnlySlot (blink0.state.retAddr 0)) demoCheck 0 demoCheck blink0.state 13 [] blink3.state ∧
    blink0.state.mem.read64 (blink0.state.retAddr 0) = 0xBAD000 ∧ blink3.state.regs .rsp = blink0.state.retAddr 0 ∧
    blink3.state.mem.read64 (blink0.state.retAddr 0) = 0xBAD000 ∧ Traps demoCheck blink0.state := by
  have e0 : blink0.state.retAddr 0 = 0x7000 := by rw [retAddr_zero]; rfl
  refine ⟨demoCheck_isCheck, blink_recorded, apart_at (a := 0x7000) rfl (by decide) (by decide), ?_, ?_, ?_, ?_, ?_⟩
  · rw [e0]; exact blink_run
  · rw [e0]; exact cread_read (l := blink0.log) (by decide)
  · rw [e0]; decide +kernel
  · rw [e0]; exact cread_read (l := blink3.log) (by decide +kernel)
  · exact crun_traps (k := demoCheck.drop 14) (after_crun (w := demoCheck) (k := demoCheck)
      (k' := demoCheck.drop 13) (n := 19) (c := blink0) (by decide +kernel))

theorem notSlot {x : W} (h : InRange x 0x7000 8) : ¬ InRange x sigBase regionSize ∧
    ¬ InRange x (0x7000 - BitVec.ofNat 64 16) 16 := by
  have hz : regionSize = 8388608 := rfl
  unfold InRange sigBase at *
  rw [hz]
  constructor <;> bv_omega

/-- Nor for pushes: a function called from 0x401000 is entered, and 0xBAD000 is recorded, while the return address
is the right one again when the push is over. -/
theorem C116_refuted_push : (∃ free, IsPush demoPush 0 16 free) ∧ Recorded sigBase [] p0.state ∧
    p0.state.mem.read64 (p0.state.retAddr 0) = 0x401000 ∧
    ∃ te se, Raced (OnlySlot (p0.state.retAddr 0)) demoPush 0 demoPush p0.state te [] se ∧
      Recorded sigBase [0xBAD000] se ∧ se.mem.read64 (p0.state.retAddr 0) = 0x401000 := by
  obtain ⟨fp, ip⟩ := demoPush_isPush
  have r0 : p0.state.mem.read64 (p0.state.retAddr 0) = 0x401000 := cread_read (l := p0.log) (by decide)
  obtain ⟨te, se, h1, h2, h3⟩ := C116_window_push ip p0_recorded
    (apart_at (s := p0.state) (a := 0x7000) rfl (by decide) (by decide)) (by decide) 0xBAD000
  exact ⟨⟨fp, ip⟩, p0_recorded, r0, te, se, h1, h2, h3.trans r0⟩

/-- The state after the push in `p0`. -/
def blinkP : LogState := after demoPush 9 demoPush p0

/-- Another thread overwrites the return address. -/
def blinkQ : LogState := hit 0xBAD000 blinkP

/-- The comparison comes next, and the address has been put back. -/
def blinkR : LogState := hit 0x401000 (after demoCheck 7 demoCheck blinkQ)

/-- The check is over. -/
def blinkS : LogState := after demoCheck 4 (demoCheck.drop 7) blinkR

/-- A thread whose return address is overwritten after the push, and put back just in time: it returns to where it was
called from. -/
theorem blink_thread : RacedRun sigBase p0.state [0x401000] blinkS.state ∧
    blinkS.state.mem.read64 0x7000 = 0x401000 := by
  obtain ⟨fp, ip⟩ := demoPush_isPush
  obtain ⟨fc, ic⟩ := demoCheck_isCheck
  have e1 := after_crun (w := demoPush) (k := demoPush) (k' := []) (n := 9) (c := p0) (by decide +kernel)
  have e2 := after_crun (w := demoCheck) (k := demoCheck) (k' := demoCheck.drop 7) (n := 7) (c := blinkQ)
    (by decide +kernel)
  have e3 := after_crun (w := demoCheck) (k := demoCheck.drop 7) (k' := []) (n := 4) (c := blinkR)
    (by decide +kernel)
  have r0 : p0.state.mem.read64 (p0.state.retAddr 0) = 0x401000 := cread_read (l := p0.log) (by decide)
  have spQ : blinkQ.state.regs .rsp = 0x7000 := by decide +kernel
  have hsh : p0.state.shadow = 0x100020 := cread_read (a := 0x100000) (l := p0.log) (by decide)
  have s1 := RacedRun.enter (g := sigBase) (M := fun _ _ => False) .start ip
    (apart_at (s := p0.state) (a := 0x7000) rfl (by decide) (by decide)) (by rw [hsh]; decide)
    (fun _ _ h => h.elim) (crun_raced _ e1)
  rw [r0] at s1
  have s2 : RacedRun sigBase p0.state [0x401000] blinkQ.state := s1.work rfl fun x hx =>
    write64_outRange _ _ _ _ fun hr => (notSlot hr).1 hx
  refine ⟨s2.leave ic (apart_at spQ (by decide) (by decide)) (M := OnlySlot 0x7000)
    (fun t x hx => by rw [spQ]; exact notSlot hx)
    ((crun_raced _ e2).trans ((hit_raced _ _).trans (crun_raced _ e3))) ?_,
    cread_read (l := blinkS.log) (by decide +kernel)⟩
  have : blinkS.state.shadow = 0x100020 := cread_read (a := 0x100000) (l := blinkS.log) (by decide +kernel)
  rw [this]; decide

/-- The hypotheses of `C116_check_partial` are met there, and the moment is the comparison. -/
example : ∃ t1 km sm, Raced (OnlySlot 0x7000) demoCheck 0 demoCheck blink0.state t1 km sm ∧
    Raced (OnlySlot 0x7000) demoCheck t1 km sm 13 [] blink3.state ∧
    sm.mem.read64 0x7000 = 0x401000 := by
  have e1 := after_crun (w := demoCheck) (k := demoCheck) (k' := demoCheck.drop 7) (n := 7) (c := blink0)
    (by decide +kernel)
  have e2 := after_crun (w := demoCheck) (k := demoCheck.drop 7) (k' := demoCheck.drop 8) (n := 1)
    (c := hit 0x401000 blink1) (by decide +kernel)
  have e3 := after_crun (w := demoCheck) (k := demoCheck.drop 8) (k' := []) (n := 3)
    (c := hit 0xBAD000 blink2) (by decide +kernel)
  exact ⟨8, _, (hit 0x401000 blink1).state, (crun_raced _ e1).trans (hit_raced _ _),
    (crun_raced _ e2).trans ((hit_raced _ _).trans (crun_raced _ e3)), read64_write64 ..⟩

/-! ## The same with a register -/

/-- The return address of a leaf function, kept in rax, has been overwritten with 0xBAD000. -/
def wink0 : LogState := hit 0xBAD000 l1

/-- The comparison has been made, with the address which another thread has put there for this moment. -/
def wink1 : LogState := after leafPop 1 leafPop (hit 0x401000 wink0)

/-- The check is over. -/
def wink2 : LogState := after leafPop 2 (leafPop.drop 1) (hit 0xBAD000 wink1)

theorem wink_run : Raced (OnlySlot 0x7000) leafPop 0 leafPop wink0.state 5 [] wink2.state := by
  have e1 := after_crun (w := leafPop) (k := leafPop) (k' := leafPop.drop 1) (n := 1) (c := hit 0x401000 wink0)
    (by decide +kernel)
  have e2 := after_crun (w := leafPop) (k := leafPop.drop 1) (k' := []) (n := 2) (c := hit 0xBAD000 wink1)
    (by decide +kernel)
  exact (hit_raced _ _).trans ((crun_raced _ e1).trans ((hit_raced _ _).trans (crun_raced _ e2)))

theorem wink_push : Raced (fun _ _ => False) leafPush 0 leafPush l0.state 2 [] l1.state :=
  crun_raced _ (after_crun (w := leafPush) (k := leafPush) (k' := []) (n := 2) (c := l0) (by decide +kernel))

/-- Keeping return addresses in registers does not help: the leaf function called from 0x401000 returns to 0xBAD000. -/
theorem C116_refuted_register : IsRegPush leafPush .rax 0 ∧ IsRegPop leafPop .rax ∧
    Recorded sigBase [] l0.state ∧ l0.state.mem.read64 0x7000 = 0x401000 ∧
    Raced (fun _ _ => False) leafPush 0 leafPush l0.state 2 [] l1.state ∧
    wink0.state.regs = l1.state.regs ∧ wink0.state.mem.read64 0x7000 = 0xBAD000 ∧
    Raced (OnlySlot 0x7000) leafPop 0 leafPop wink0.state 5 [] wink2.state ∧
    wink2.state.regs .rsp = 0x7000 ∧ wink2.state.mem.read64 0x7000 = 0xBAD000 ∧ Traps leafPop wink0.state :=
  ⟨leafPush_is, leafPop_is, l0_recorded, cread_read (l := l0.log) (by decide), wink_push, rfl,
    cread_read (l := wink0.log) (by decide +kernel), wink_run, by decide +kernel,
    cread_read (l := wink2.log) (by decide +kernel),
    crun_traps (k := leafPop.drop 16) (after_crun (w := leafPop) (k := leafPop)
      (k' := leafPop.drop 15) (n := 13) (c := wink0) (by decide +kernel))⟩

/-- The hypotheses of `C116_leafReturn_partial` are met there. -/
example : ∃ t1 km sm, t1 ≤ 5 ∧ Raced (OnlySlot 0x7000) leafPop 0 leafPop wink0.state t1 km sm ∧
    Raced (OnlySlot 0x7000) leafPop t1 km sm 5 [] wink2.state ∧
    (sm.mem.read64 0x7000 = 0x401000 ∨ sm.mem.read64 0x7000 = 0) := by
  have e0 : l0.state.regs .rsp + BitVec.ofInt 64 0 = 0x7000 := by decide +kernel
  have e1 : wink0.state.regs .rsp = 0x7000 := by decide +kernel
  have er : l0.state.mem.read64 0x7000 = 0x401000 := cread_read (l := l0.log) (by decide)
  obtain ⟨t1, km, sm, h1, h2, h3, h4, _⟩ := C116_leafReturn_partial l0_recorded .start leafPush_is
    (by rw [e0]; exact (apart_at (s := l0.state) (a := 0x7000) rfl (by decide) (by decide)).ret)
    (fun _ _ h => h.elim) wink_push (s2 := wink0.state) rfl
    (fun x hx => write64_outRange _ _ _ _ fun hr => (notSlot hr).1 hx) rfl leafPop_is
    (apart_at (s := wink0.state) (a := 0x7000) e1 (by decide) (by decide))
    (N := OnlySlot 0x7000) (fun _ _ hx => by rw [e1]; exact notSlot hx) wink_run
  refine ⟨t1, km, sm, h1, h2, h3, ?_⟩
  rw [e0, e1, er] at h4
  simpa using h4

end Verif
