import Verif.Props.SignalTeamRun
import Verif.Props.MultiExamples
import Verif.Props.RunMachineExamples

/-!
# C102: example
-/

namespace Verif

/-- Two threads, which may be in handlers. -/
def crewPair (a b : Crew) : Nat → Option Crew := setAt (setAt (fun _ => none) 0 (some a)) 1 (some b)

theorem crewPair_one (a b : Crew) : crewPair a b 0 = some a := rfl
theorem crewPair_two (a b : Crew) : crewPair a b 1 = some b := rfl

theorem crewPair_set_one (a b c : Crew) : setAt (crewPair a b) 0 (some c) = crewPair c b := by
  funext j
  by_cases h : j = 0
  · subst h; rfl
  · by_cases h' : j = 1
    · subst h'; rfl
    · simp [crewPair, setAt, h, h']

theorem crewPair_set_two (a b c : Crew) : setAt (crewPair a b) 1 (some c) = crewPair a c := by
  funext j
  by_cases h' : j = 1
  · subst h'; rfl
  · simp [crewPair, setAt, h']

theorem apiece_one {a b : Crew} {mem mem' : Mem}
    (h : ∀ x, InRange x 0x2000000 regionSize ∨ b.keeps x → mem' x = mem x) :
    Apiece twoRegions (crewPair a b) 0 mem mem' := by
  intro j w hj hw x hx
  by_cases h' : j = 1
  · subst h'
    rw [crewPair_two] at hw
    cases hw
    exact h x hx
  · simp [crewPair, setAt, hj, h'] at hw

theorem apiece_two {a b : Crew} {mem mem' : Mem}
    (h : ∀ x, InRange x 0x100000 regionSize ∨ a.keeps x → mem' x = mem x) :
    Apiece twoRegions (crewPair a b) 1 mem mem' := by
  intro j w hj hw x hx
  by_cases h' : j = 0
  · subst h'
    rw [crewPair_one] at hw
    cases hw
    exact h x hx
  · simp [crewPair, setAt, hj, h'] at hw

/-- No handlers which are functions of the program. -/
def noHandler (_ : Func) (_ : List Ev) (_ : Func) : Prop := False

/-- Steps of a process of the program with exceptions, whose handlers are called from 0x403000. -/
abbrev tryCrews (frame : Func → Reg) : CrewsProc → CrewsProc → Prop :=
  CrewsStep (tryProg.excSem.handling noHandler) frame tryProg.snip (· = 0x403000) 2 twoRegions

/-- The first thread when a signal has arrived in its push: the handler's stack is at 0x6000, where the return
address of its call is. -/
def tryEntered (s : State) : State :=
  { s with regs := fun r => if r = .rsp then 0x6000 else s.regs r, mem := s.mem.write64 0x6000 0x403000 }

theorem busy_keeps {a : XAct} {w k : Code} {ev : Ev} {s0 s : State} {p q : W} (ha : a.at_ = p)
    (hs : s0.regs .rsp - BitVec.ofNat 64 16 = q) {x : W}
    (h : Crew.keeps ⟨.busy w k ev s0 s a [], []⟩ x) : InRange x p 8 ∨ InRange x q 16 := by
  rcases h with (⟨b, hb, h⟩ | h) | ⟨_, hb, _⟩
  · rw [List.mem_singleton.mp hb, ha] at h; exact .inl h
  · rw [hs] at h; exact .inr h
  · cases hb

/-- The bytes at which nothing of the following happens. -/
theorem write_away {mem : Mem} {p v x b : W} {n : Nat} (h : InRange x b n) (hs : Sep p 8 b n) : (mem.write64 p v) x = mem x :=
  write64_outRange _ _ _ _ (sep_not_inRange hs.symm h)

/-- The handler's push, which is that of the writing function. -/
theorem tryJob (frame : Func → Reg) {s : State} (hs : s.regs .rsp = 0x6000) (hm : s.mem.read64 0x6000 = 0x403000) :
    ∃ p' leaf' kept K, Job.Ok (· = 0x403000) 0x100000
      ⟨tryPush, s, [], none, p', leaf', kept, K, RoomFor 0x100000⟩ := by
  cases snippets_fit (tryProg.binaryOk rfl frame) tryProg_ok.built tryProg_calls
    (f := 2) (by decide) (tryPush_snip hs) with
  | save k1 => exact absurd k1 tryProg_reg.2
  | push k1 k2 k3 k4 =>
    refine ⟨_, _, _, _, Job.Ok.call (s := s) (p := []) k2 ?_ ?_⟩
    · rw [k4]
      refine Apart.mono ?_ k3
      refine ⟨?_, ?_, ?_⟩
      · exact sep_of_le (by decide) (by decide) (by decide)
      · rw [hs]; exact sep_of_le (by decide) (by decide) (by decide)
      · rw [hs]; exact sep_of_le (by decide) (by decide) (by decide)
    · rw [k4]; exact hm

/-- The threads after the first instruction of their pushes. -/
def tryOne : State := (oneState.over twoMem).pushW ((oneState.over twoMem).regs .r10)
def tryTwo : State := (otherState.over tryOne.mem).pushW ((otherState.over tryOne.mem).regs .r10)

theorem tryProg_crews (frame : Func → Reg) :
    CrewsProtected (tryProg.excSem.handling noHandler) frame tryProg.snip (· = 0x403000) 2 twoRegions :=
  C102_signals_partial (tryProg.binaryOk rfl frame) tryProg_ok.built
    (tryProg_ok.built.covered (tryProg_ok.noRecursion (by decide +kernel))) tryProg_calls tryProg_tails
    (Small.allIn rfl rfl rfl) tryProg_ok.handlers
    tryProg_cleanup nofun (by rintro _ rfl; decide +kernel) 2 twoRegions

/-- Example for `C102_signals_partial`: both threads are in the middle of pushes, of which they have executed one
instruction each, and the first thread is also in the middle of the push of a handler which has interrupted
it there. -/
theorem C102_example (frame : Func → Reg) :
    CrewsProtected (tryProg.excSem.handling noHandler) frame tryProg.snip (· = 0x403000) 2 twoRegions ∧
    ∃ mem s s' s0 s0' j t ps, j.code = tryPush ∧ Trail (tryCrews frame) (.run twoMem fun _ => none)
      (.run mem (crewPair ⟨.busy tryPush tryPush.tail .push s0 s ⟨2, [], 0x401000, 0x7000⟩ [],
          [.busy j tryPush.tail t]⟩
        ⟨.busy tryPush tryPush.tail .push s0' s' ⟨2, [], 0x402000, 0x9000⟩ [], []⟩) :: ps) := by
  refine ⟨tryProg_crews frame, ?_⟩
  have e1 : oneState.mem.read64 0x7000 = 0x401000 := by decide
  have e2 : otherState.mem.read64 0x9000 = 0x402000 := by decide
  have r1 := Trail.step (step := tryCrews frame) (.start (p := .run twoMem fun _ => none))
    (.spawn (i := 0) (s := oneState) 2 0x7000 rfl one_recorded (fun _ _ _ h => by cases h))
  have r2 := r1.step (.spawn (i := 1) (s := otherState) 2 0x9000 (by simp [setAt]) other_recorded
    fun _ _ _ _ _ _ => rfl)
  rw [e1, e2] at r2
  change Trail _ _ (CrewsProc.run twoMem (crewPair ⟨.own oneState _, []⟩ ⟨.own otherState _, []⟩) :: _) at r2
  have r3 := r2.step (.step (i := 0) (crewPair_one _ _) (.begin tryProg_pushes (tryPush_snip (by decide))
    (one_clear (by decide))) (fun _ _ _ _ _ _ => rfl))
  rw [crewPair_set_one] at r3
  have r4 := r3.step (.step (i := 1) (crewPair_two _ _) (.begin tryProg_pushes (tryPush_snip (by decide))
    (other_clear (by decide))) (fun _ _ _ _ _ _ => rfl))
  rw [crewPair_set_two] at r4
  -- both threads execute an instruction
  have r5 := r4.step (.step (i := 0) (crewPair_one _ _) (.instr (fun _ _ _ h => nomatch h) (.next rfl))
    (apiece_one fun x hx => by
      rcases hx with hx | hx
      · exact write_away hx (sep_of_le (by decide) (by decide) (by decide))
      · rcases busy_keeps (p := 0x9000) (q := 0x8ff0) rfl (by decide) hx with hx | hx <;>
          exact write_away hx (sep_of_le (by decide) (by decide) (by decide))))
  rw [crewPair_set_one] at r5
  have r6 := r5.step (.step (i := 1) (crewPair_two _ _) (.instr (fun _ _ _ h => nomatch h) (.next rfl))
    (apiece_two fun x hx => by
      rcases hx with hx | hx
      · exact write_away hx (sep_of_le (by decide) (by decide) (by decide))
      · rcases busy_keeps (p := 0x7000) (q := 0x6ff0) rfl (by decide) hx with hx | hx <;>
          exact write_away hx ((sep_of_le (by decide) (by decide) (by decide)).symm)))
  rw [crewPair_set_two] at r6
  -- the signal, and the push of the handler
  have r7 := r6.step (.step (i := 0) (crewPair_one _ _) (.signal (s1 := tryEntered (tryOne.over tryTwo.mem)) (by decide) nofun
    ⟨rfl, fun x hx => write_away hx (sep_of_le (by decide) (by decide) (by decide))⟩
    ⟨fun x hx => by
      rcases busy_keeps (p := 0x7000) (q := 0x6ff0) rfl (by decide) hx with hx | hx <;>
        exact write_away hx (sep_of_le (by decide) (by decide) (by decide)),
      fun _ x hx => write_away hx (sep_of_le (by decide) (by decide) (by decide))⟩)
    (apiece_one fun x hx => by
      rcases hx with hx | hx
      · exact write_away hx (sep_of_le (by decide) (by decide) (by decide))
      · rcases busy_keeps (p := 0x9000) (q := 0x8ff0) rfl (by decide) hx with hx | hx <;>
          exact write_away hx (sep_of_le (by decide) (by decide) (by decide))))
  rw [crewPair_set_one] at r7
  obtain ⟨_, _, _, _, hj⟩ := tryJob frame (s := tryEntered (tryOne.over tryTwo.mem)) (by decide) (by decide)
  have r8 := r7.step (.step (i := 0) (crewPair_one _ _) (.beginH hj rfl)
    (fun _ _ _ _ _ _ => rfl))
  rw [crewPair_set_one] at r8
  have r9 := r8.step (.step (i := 0) (crewPair_one _ _) (.instrH (fun _ _ h => nomatch h) (.next rfl)
    ⟨fun x hx => by
      rcases busy_keeps (p := 0x7000) (q := 0x6ff0) rfl (by decide) hx with hx | hx <;>
        exact write_away hx (sep_of_le (by decide) (by decide) (by decide)),
      fun _ x hx => write_away hx (sep_of_le (by decide) (by decide) (by decide))⟩)
    (apiece_one fun x hx => by
      rcases hx with hx | hx
      · exact write_away hx (sep_of_le (by decide) (by decide) (by decide))
      · rcases busy_keeps (p := 0x9000) (q := 0x8ff0) rfl (by decide) hx with hx | hx <;>
          exact write_away hx (sep_of_le (by decide) (by decide) (by decide))))
  rw [crewPair_set_one] at r9
  exact ⟨_, _, _, _, _, _, _, _, rfl, r9⟩

/-- Example for `C102_main_partial`: the program of `C101` and its library, with a signal handler. -/
example (frame : Func → Reg) : ∃ res st w, toolMain twoHost { instr := libFlags } ["/bin/prog"] = .zero res st w ∧
    ∃ l : BObject → List (BFunc × Plan), (∀ o ∈ twoObjects, DoneTo libFlags [] twoObjects res o (l o)) ∧
      ∀ depth g, CrewsProtected ((toolSem libFlags twoObjects twoData l twoWho twoBinds).handling twoHandler)
        (toolFrame (twoMachine frame) twoWho) (toolSnip {} twoData (twoMachine frame) l twoWho)
        (· = 0x402000) depth g := by
  obtain ⟨res, st, h⟩ := twoHost_run
  obtain ⟨l, h1, h2⟩ := C102_main_partial (fl := { instr := libFlags }) (os := twoObjects) (d := twoData)
    (x := twoMachine frame) (who := twoWho) (binds := twoBinds) h (by simp [twoHost]) rfl
    (fun o ho _ => two_suitableMachine frame o ho) two_bind
  exact ⟨res, st, _, h, l, h1, fun depth g => h2 _ (two_handlersIn l) _ (by rintro v rfl; decide +kernel) depth g⟩

end Verif
