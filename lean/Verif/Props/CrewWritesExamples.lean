import Verif.Props.CrewWrites
import Verif.Props.WeakMemoryExamples

/-! # Examples for what snippets write -/

namespace Verif

theorem tryProg_sound : ∃ writes, Sound (tryProg.excSem.handling noHandler) writes :=
  ⟨_, (built_sound_handlers tryProg_ok.built tryProg_calls
    (tryProg_ok.built.covered (tryProg_ok.noRecursion (by decide +kernel))) tryProg_tails
    (Small.allIn rfl rfl rfl) tryProg_ok.handlers tryProg_cleanup).handling (H := noHandler) nofun⟩

theorem tryProg_fits (frame : Func → Reg) (f : Func) (t : List Ev) (ev : Ev) (c : Code) (s : State) (R : W)
    (ht : (tryProg.excSem.handling noHandler).trace f (t ++ [ev])) (h : tryProg.snip f ev c s R) :
    SnipFits ((tryProg.excSem.handling noHandler).inReg f) (frame f) c s R ev :=
  snippets_fit (tryProg.binaryOk rfl frame) tryProg_ok.built tryProg_calls (And.left (b := ∃ _, _) ht) h

/-- Example for `C102_footprint` and `C102_footprint_handler`: a handler has interrupted the push of the first thread,
and the next instructions of its own push and of that of the second thread are pushes of registers. -/
example (frame : Func → Reg) : ∃ mem T ps j t s s0 c d w,
    Trail (tryCrews frame) (.run twoMem fun _ => none) (.run mem T :: ps) ∧
    T 0 = some ⟨w, [.busy j tryPush.tail t]⟩ ∧ T 1 = some ⟨.busy tryPush tryPush.tail .push s0 s c d, []⟩ ∧
    Go tryPush tryPush.tail (t.over mem) tryPush.tail.tail ((t.over mem).pushW (t.regs .r11)) ∧
    (∀ y, ¬ InRange y 0x100000 regionSize → ¬ InRange y (j.start.regs .rsp - BitVec.ofNat 64 16) 16 →
      ((t.over mem).pushW (t.regs .r11)).mem y = mem y) ∧
    ∀ y, ¬ InRange y 0x2000000 regionSize → ¬ InRange y (s0.regs .rsp - BitVec.ofNat 64 16) 16 →
      ((s.over mem).pushW (s.regs .r11)).mem y = mem y := by
  obtain ⟨_, mem, s, s', s0, s0', j, t, ps, hj, h⟩ := C102_example frame
  obtain ⟨_, hs⟩ := tryProg_sound
  have go : ∀ s : State, Go tryPush tryPush.tail (s.over mem) tryPush.tail.tail ((s.over mem).pushW (s.regs .r11)) :=
    fun s => .next rfl
  have hO : ∀ v : W, v = 0x403000 → ¬ GuardLike v := by rintro _ rfl; decide +kernel
  refine ⟨_, _, _, _, _, _, _, _, _, _, h, rfl, rfl, go _, fun y h1 h2 => ?_, fun y h1 h2 => ?_⟩
  · exact C102_footprint_handler hs (tryProg_fits frame) hO h (i := 0) rfl (k' := tryPush.tail.tail) (.next rfl) y h1 h2
  · exact C102_footprint hs (tryProg_fits frame) hO h (i := 1) rfl (go s') y h1 h2

/-- The second instruction of the push. -/
theorem try_execute_two (avx : Bool) (s : State) :
    executeAt avx tryText 0x500002 s = .next 0x500004 (s.pushW (s.regs .r11)) := by
  simp only [executeAt, show decode (window tryText 0x500002) = some (.plain (.push .r11), 2) by decide +kernel]
  rfl

/-- Example for `C120_footprint`: a handler has interrupted the push of the first thread, and the next instruction
of its own push changes nothing but the thread's region and 16 bytes below the handler's stack pointer. -/
example (frame : Func → Reg) : ∃ mem T ps j t w,
    Trail (tryGangs frame false) (.run twoMem fun _ => none) (.run mem T :: ps) ∧
    T 0 = some ⟨w, [.busy j 0x500000 38 0x500002 t]⟩ ∧ ∃ s',
      executeAt false tryText 0x500002 (t.over mem) = .next 0x500004 s' ∧
      ∀ y, ¬ InRange y 0x100000 regionSize → ¬ InRange y (j.start.regs .rsp - BitVec.ofNat 64 16) 16 →
        s'.mem y = mem y := by
  obtain ⟨_, mem, s, s', s0, s0', j, t, ps, h⟩ := C120_example frame false
  obtain ⟨_, hs⟩ := tryProg_sound
  have hu : GangsUndefined tryProg.snip (· = 0x403000) twoRegions false tryText := ⟨nofun, nofun⟩
  refine ⟨_, _, _, _, _, _, h, gangPair_one _ _, _, try_execute_two false _, fun y h1 h2 => ?_⟩
  exact C120_footprint hs (tryProg_fits frame) (by rintro _ rfl; decide +kernel) hu h (gangPair_one _ _) .hand
    (show Inside 0x500000 38 0x500002 from ⟨2, by decide, rfl⟩) (try_execute_two false _) y h1 h2

/-- Example for `C121_footprint`: both threads are in the middle of pushes, and some of what they have written has not got to
memory; the next instruction of the second thread changes nothing of what that thread sees but its region and 16
bytes below the stack pointer with which its push began. -/
example (frame : Func → Reg) : ∃ a T ps s0 s c d,
    Trail (tryWeak frame false) (.run ⟨twoMem, fun _ => []⟩ fun _ => none) (.run a T :: ps) ∧
    (a.waiting 1).length = 8 ∧ T 1 = some ⟨.busy 0x500000 38 0x500002 .push s0 s c d, []⟩ ∧ ∃ s',
      executeAt false tryText 0x500002 (s.over (Caches.x86.sees a 1)) = .next 0x500004 s' ∧
      ∀ y, ¬ InRange y 0x2000000 regionSize → ¬ InRange y (s0.regs .rsp - BitVec.ofNat 64 16) 16 →
        s'.mem y = Caches.x86.sees a 1 y := by
  obtain ⟨_, a, s, s', s0, s0', ps, _, h8, _, _, h⟩ := C121_example frame false
  obtain ⟨_, hs⟩ := tryProg_sound
  have hu : GangsUndefined tryProg.snip (· = 0x403000) twoRegions false tryText := ⟨nofun, nofun⟩
  refine ⟨_, _, _, _, _, _, _, h, h8, gangPair_two _ _, _, try_execute_two false _, fun y h1 h2 => ?_⟩
  exact C121_footprint hs (tryProg_fits frame) (by rintro _ rfl; decide +kernel) hu h (gangPair_two _ _) .prog
    (show Inside 0x500000 38 0x500002 from ⟨2, by decide, rfl⟩) (try_execute_two false _) y h1 h2

end Verif
