import Verif.Thread
import Verif.Witness

/-! C06: no false alarm. -/

namespace Verif

/-- C06.  Start with an empty initialised region.  However the thread calls, works,
returns to where it was called from and unwinds, it is never killed by a check, provided
the recorded return addresses are not multiples of 2^32 and the region is not exhausted
(both are conditions of `HonestStep.call`). -/
theorem C06_no_false_alarm {g : W} {s : State} (h : Recorded g [] s) {c : Conf}
    (hr : HonestRun g (.run s [] none) c) : c ≠ .killed := by
  have : (Conf.run s [] none).Good g :=
    ⟨⟨[], h, List.Sublist.slnil, by simp⟩, by simp⟩
  intro e
  subst e
  exact this.run hr

/-- C06, progress: in every situation the thread can get into, the check of an honest
return falls through (it neither traps nor loops). -/
theorem C06_return_passes {g : W} {s : State} (h : Recorded g [] s) {s1 : State} {ra : W}
    {p : List W} (hr : HonestRun g (.run s [] none) (.run s1 (ra :: p) none)) {code : Code}
    {d : Int} {n : Nat} {free : Reg → Prop} (hc : IsCheck code d n free)
    (ha : Apart g (s1.retAddr d) n s1) (he : s1.mem.read64 (s1.retAddr d) = ra) :
    ∃ s2, Exits code s1 s2 ∧ HonestStep g (.run s1 (ra :: p) none) (.run s2 p none) := by
  have : (Conf.run s [] none).Good g :=
    ⟨⟨[], h, List.Sublist.slnil, by simp⟩, by simp⟩
  obtain ⟨⟨l, h1, h2, h3⟩, _⟩ := this.run hr
  obtain ⟨s2, _, hx, _⟩ := honest_check h1 h2 h3 hc ha he
  exact ⟨s2, hx, .ret hc ha he hx⟩

/-- C06, progress for register-frame functions. -/
theorem C06_leaf_return_passes {g : W} {s : State} (h : Recorded g [] s) {s1 : State} {ra : W}
    {reg : Reg} {p : List W} (hr : HonestRun g (.run s [] none) (.run s1 p (some (reg, ra))))
    {code : Code} (hc : IsRegPop code reg) (he : s1.mem.read64 (s1.regs .rsp) = ra) :
    ∃ s2, Exits code s1 s2 ∧ HonestStep g (.run s1 p (some (reg, ra))) (.run s2 p none) := by
  have : (Conf.run s [] none).Good g :=
    ⟨⟨[], h, List.Sublist.slnil, by simp⟩, by simp⟩
  obtain ⟨_, hl⟩ := this.run hr
  have hx := hc.run (he.trans (hl _ _ rfl).symm)
  exact ⟨_, hx, .leave hc he hx⟩

/-! ### A concrete case: two calls, a longjmp over one of them, a return -/

theorem sample_recorded : Recorded 0x100000 [] (sampleState 0x401000 []) where
  gs := rfl
  pointer := by decide
  holds := ⟨fun i h => absurd h (Nat.not_lt_zero i), by decide⟩
  guard := by decide
  room := by decide

theorem sample_apart (s : State) (h : s.regs .rsp = 0x7000) : Apart 0x100000 (s.retAddr 0) 16 s where
  ret := by rw [State.retAddr, h]; exact sep_of_le (by decide) (by decide) (by decide)
  save := by rw [h]; exact sep_of_le (by decide) (by decide) (by decide)
  ret_save := by rw [State.retAddr, h]; exact sep_of_le (by decide) (by decide) (by decide)

theorem default_isPush : ∃ code free, IsPush code 0 16 free := by
  obtain ⟨code, he, _⟩ := push_correct (fl := {}) (sm := none) (mid := none)
    ⟨by decide, by decide, rfl⟩ ⟨by simp, by simp⟩ 0
  refine ⟨code, _, {}, none, false, 0, false, 0, 0, none, ⟨by decide, by decide, rfl⟩, rfl,
    ⟨by simp, by simp⟩, ?_, rfl, rfl, rfl⟩
  simpa [jitStackPush, pushMove] using he

theorem default_isCheck : ∃ code free, IsCheck code 0 16 free := by
  obtain ⟨code, he, _⟩ := pop_scan (fl := {}) (sm := none) (mid := none) (addr := 0)
    ⟨by decide, by decide, rfl⟩ ⟨by simp, by simp⟩
  refine ⟨code, _, {}, none, false, 0, 0, none, ⟨by decide, by decide, rfl⟩, rfl,
    ⟨by simp, by simp⟩, ?_, rfl, rfl, rfl⟩
  simpa [jitStackPop, popMove] using he

/-- A call at the same stack position, possible whenever there is room. -/
theorem call_again {g : W} {s : State} {p l : List W} {code : Code} {free : Reg → Prop} {n : Nat}
    {d : Int} (hp : IsPush code d n free) (hr : Recorded g l s) (ha : Apart g (s.retAddr d) n s)
    (hroom : 32 + 8 * l.length + 8 ≤ regionSize)
    (hg : ¬ GuardLike (s.mem.read64 (s.retAddr d))) :
    ∃ s', HonestStep g (.run s p none) (.run s' (s.mem.read64 (s.retAddr d) :: p) none) ∧
      Recorded g (s.mem.read64 (s.retAddr d) :: l) s' ∧ s'.regs .rsp = s.regs .rsp ∧
      s'.mem.read64 (s.retAddr d) = s.mem.read64 (s.retAddr d) := by
  obtain ⟨s', hx, hp'⟩ := hp.run (hr.pushSep ha hroom)
  refine ⟨s', .call hp ha (hr.hasRoom.2 hroom) hg hx, hr.push ha hroom hp', hp'.same.rsp, ?_⟩
  refine read64_eq _ _ _ fun x hx => hp'.same.mem x ?_
  intro q hq
  simp only [List.mem_cons, List.not_mem_nil, or_false] at hq
  rcases hq with rfl | rfl | rfl
  · refine sep_not_inRange ?_ hx
    rw [hr.pointer]; exact (sep_in ha.ret hroom).symm
  · refine sep_not_inRange ?_ hx
    have := sep_in (a := 0) (n := 8) ha.ret (by decide)
    rw [gs_zero] at this
    rw [hr.gs]; exact this.symm
  · exact sep_not_inRange ha.ret_save hx

example : ∃ s1 s2, HonestRun 0x100000 (.run (sampleState 0x401000 []) [] none)
      (.run s1 [0x401000] none) ∧
    HonestStep 0x100000 (.run s1 [0x401000] none) (.run s2 [] none) ∧
    Recorded 0x100000 [0x401000, 0x401000] s1 := by
  obtain ⟨cpush, free, hp⟩ := default_isPush
  obtain ⟨cpop, free', hc⟩ := default_isCheck
  have e0 : (sampleState 0x401000 []).mem.read64 ((sampleState 0x401000 []).retAddr 0) =
    0x401000 := by decide
  obtain ⟨s1, st1, r1, h1, m1⟩ := call_again (p := []) hp sample_recorded (sample_apart _ rfl)
    (by decide) (by rw [e0]; decide)
  have a1 : s1.retAddr 0 = (sampleState 0x401000 []).retAddr 0 := by
    rw [State.retAddr, h1]; rfl
  have e1 : s1.mem.read64 (s1.retAddr 0) = 0x401000 := by rw [a1, m1, e0]
  obtain ⟨s2, st2, r2, h2, m2⟩ := call_again (p := [0x401000]) hp r1 (sample_apart _ h1)
    (by decide) (by rw [e1]; decide)
  have a2 : s2.retAddr 0 = s1.retAddr 0 := by
    rw [State.retAddr, h2]; rfl
  rw [e0] at st1 r1 r2
  rw [e1] at st2 r2
  have run : HonestRun 0x100000 (.run (sampleState 0x401000 []) [] none)
      (.run s2 [0x401000] none) :=
    (((HonestRun.refl).step st1).step st2).step (.unwind 1)
  obtain ⟨s3, _, st3⟩ := C06_return_passes sample_recorded run hc (sample_apart _ (h2.trans h1))
    (by rw [a2, m2, e1])
  exact ⟨s2, s3, run, st3, r2⟩

end Verif
