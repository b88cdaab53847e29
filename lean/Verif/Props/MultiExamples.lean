import Verif.Props.Multi
import Verif.Props.UnwindMachineExamples

/-!
# C88: example programs and attacks
-/

namespace Verif

/-- A thread goes on by itself. -/
theorem CRun.thread {m : ProgSem} {T U : Nat → Proc} (h : CRun m T U) (i : Nat) {q : Proc}
    (hr : PRun m (U i) q) : CRun m T (setAt U i q) := by
  induction hr with
  | refl =>
    have : setAt U i (U i) = U := by
      funext j
      by_cases e : j = i
      · subst e; simp [setAt]
      · simp [setAt, e]
    rw [this]; exact h
  | @step q r _ hst ih =>
    have := ih.step (.own (i := i) (q := r) (by rw [setAt_same]; exact hst))
    have e : setAt (setAt U i q) i r = setAt U i r := by
      funext j
      by_cases e : j = i
      · subst e; simp [setAt]
      · simp [setAt, e]
    rwa [e] at this

/-! ## Two threads -/

/-- Two stacks and two empty shadow regions. -/
def twoMem : Mem := memOf [(0x7000, 0x401000), (0x100000, 0x100020), (0x9000, 0x402000), (0x2000000, 0x2000020)]

/-- The threads at their beginning. -/
def oneState : State := ⟨fun r => if r = .rsp then 0x7000 else 5, 0x246, 0x100000, twoMem⟩
def otherState : State := ⟨fun r => if r = .rsp then 0x9000 else 7, 0x246, 0x2000000, twoMem⟩

/-- Where the shadow regions are. -/
def twoRegions (i : Nat) : W := if i = 0 then 0x100000 else 0x2000000

theorem one_recorded : Recorded 0x100000 [] oneState where
  gs := rfl
  pointer := by decide
  holds := ⟨fun i h => absurd h (Nat.not_lt_zero i), by decide⟩
  guard := by decide
  room := by decide

theorem other_recorded : Recorded 0x2000000 [] otherState where
  gs := rfl
  pointer := by decide
  holds := ⟨fun i h => absurd h (Nat.not_lt_zero i), by decide⟩
  guard := by decide
  room := by decide

/-- What the first thread's snippets touch is nothing to the second one. -/
theorem two_apart {x : W} (h : SnipFoot 0x100000 0x7000 0x7000 16 x) :
    ¬ InRange x 0x2000000 regionSize ∧ ¬ InRange x 0x9000 8 ∧ ¬ InRange x 0x8ff0 16 := by
  unfold SnipFoot InRange regionSize at *
  refine ⟨?_, ?_, ?_⟩ <;> rcases h with h | h | h <;> bv_omega

theorem two_apart' {x : W} (h : SnipFoot 0x2000000 0x9000 0x9000 16 x) :
    ¬ SnipFoot 0x100000 0x7000 0x7000 16 x := by
  intro h'
  have := two_apart h'
  rcases h with h | h | h
  · exact this.1 h
  · exact this.2.1 h
  · exact this.2.2 h

section
variable (frame : Func → Reg) (needs : W → Worker → W → Prop)

/-- Steps of a process of the program with exceptions. -/
abbrev tryTeam : TeamProc → Prop := TeamRun tryProg.excSem frame tryProg.snip needs twoRegions

/-- Two threads. -/
def pair (a b : Worker) : Team := setAt (setAt (fun _ => none) 0 (some a)) 1 (some b)

theorem pair_one (a b : Worker) : pair a b 0 = some a := rfl
theorem pair_two (a b : Worker) : pair a b 1 = some b := rfl

theorem pair_set_one (a b c : Worker) : setAt (pair a b) 0 (some c) = pair c b := by
  funext j
  by_cases h : j = 0
  · subst h; rfl
  · by_cases h' : j = 1
    · subst h'; rfl
    · simp [pair, setAt, h, h']

theorem pair_set_two (a b c : Worker) : setAt (pair a b) 1 (some c) = pair a c := by
  funext j
  by_cases h' : j = 1
  · subst h'; rfl
  · simp [pair, setAt, h']

variable {needs}
/-- What is spared in the other one of two threads. -/
theorem others_one {a b : Worker} {mem mem' : Mem} (h : ∀ x, needs 0x2000000 b x → mem' x = mem x) :
    Others needs twoRegions (pair a b) 0 mem mem' := by
  intro j w hj hw x hx
  by_cases h' : j = 1
  · subst h'
    rw [pair_two] at hw
    cases hw
    exact h x hx
  · simp [pair, setAt, hj, h'] at hw

theorem others_two {a b : Worker} {mem mem' : Mem} (h : ∀ x, needs 0x100000 a x → mem' x = mem x) :
    Others needs twoRegions (pair a b) 1 mem mem' := by
  intro j w hj hw x hx
  by_cases h' : j = 0
  · subst h'
    rw [pair_one] at hw
    cases hw
    exact h x hx
  · simp [pair, setAt, hj, h'] at hw

/-- Two threads start, with functions of our choice. -/
theorem two_start (f f' : Func) : tryTeam frame needs (.run twoMem
    (pair (.own oneState [⟨f, [], 0x401000, 0x7000⟩]) (.own otherState [⟨f', [], 0x402000, 0x9000⟩]))) := by
  have e1 : oneState.mem.read64 0x7000 = 0x401000 := by decide
  have e2 : otherState.mem.read64 0x9000 = 0x402000 := by decide
  have r1 := (TeamRun.init (m := tryProg.excSem) (frame := frame) (snip := tryProg.snip) (needs := needs)
    (g := twoRegions) twoMem).step (.spawn (i := 0) f 0x7000 rfl one_recorded (fun _ _ _ h => by cases h))
  have r2 := r1.step (.spawn (i := 1) (s := otherState) f' 0x9000 (by simp [setAt]) other_recorded
    fun _ _ _ _ _ _ => rfl)
  rw [e1, e2] at r2
  exact r2

theorem one_clear {s : State} {t : List Ev} {ra : W} (h : s.regs .rsp = 0x7000) :
    Clear 0x100000 [⟨2, t, ra, 0x7000⟩] 16 s := clear_one h

theorem other_clear {s : State} {t : List Ev} {ra : W} (h : s.regs .rsp = 0x9000) :
    Clear 0x2000000 [⟨2, t, ra, 0x9000⟩] 16 s := by
  intro x hx
  rw [List.mem_singleton.mp hx]
  refine ⟨?_, ?_, ?_⟩
  · show Sep 0x9000 8 _ _
    exact sep_of_le (by decide) (by decide) (by decide)
  · rw [h]; exact sep_of_le (by decide) (by decide) (by decide)
  · rw [h]
    show Sep 0x9000 8 _ _
    exact sep_of_le (by decide) (by decide) (by decide)

/-- The push of the writing function. -/
def tryPush : Code :=
  [.push .r10, .push .r11, .load .r11 .rsp 16, .loadGs .r10 0, .store .r10 0 .r11, .lea .r10 .r10 8,
   .storeGs 0 .r10, .pop .r11, .pop .r10]

theorem tryPush_snip {s : State} {R : W} (h : s.regs .rsp = R) : tryProg.snip 2 .push tryPush s R :=
  ⟨.blk 9, .stack false 0 false, by decide +kernel, by decide +kernel, (Small.atHeight_blk h).1⟩

theorem tryProg_pushes : tryProg.excSem.trace 2 ([] ++ [.push]) :=
  Small.startsX (b' := 9) [] (by decide) (by decide) (by decide +kernel)

theorem tryProg_team (frame : Func → Reg) :
    TeamProtected tryProg.excSem frame tryProg.snip Needs twoRegions :=
  C88_threads_partial (tryProg.binaryOk rfl frame) tryProg_ok.built
    (tryProg_ok.built.covered (tryProg_ok.noRecursion (by decide +kernel))) tryProg_calls tryProg_tails
    (Small.allIn rfl rfl rfl) tryProg_ok.handlers
    tryProg_cleanup twoRegions

/-- Example for `C88_threads_partial` and `C88_footprint`: both threads are at once in the middle of
pushes, of which they have executed one instruction each. -/
example : TeamProtected tryProg.excSem frame tryProg.snip Needs twoRegions ∧ ∃ mem s s' s0 s0',
    tryTeam frame Needs (.run mem
      (pair (.busy tryPush tryPush.tail .push s0 s ⟨2, [], 0x401000, 0x7000⟩ [])
        (.busy tryPush tryPush.tail .push s0' s' ⟨2, [], 0x402000, 0x9000⟩ []))) := by
  refine ⟨tryProg_team frame, ?_⟩
  have r0 := two_start frame (needs := Needs) 2 2
  have r1 := r0.step (.begin (i := 0) (pair_one _ _) tryProg_pushes (tryPush_snip (by decide))
    (one_clear (by decide)) (one_recorded.hasRoom.mpr (by decide)))
  rw [pair_set_one] at r1
  have r2 := r1.step (.begin (i := 1) (pair_two _ _) tryProg_pushes (tryPush_snip (by decide))
    (other_clear (by decide)) (other_recorded.hasRoom.mpr (by decide)))
  rw [pair_set_two] at r2
  have hs := built_sound_handlers tryProg_ok.built tryProg_calls
    (tryProg_ok.built.covered (tryProg_ok.noRecursion (by decide +kernel))) tryProg_tails
    (Small.allIn rfl rfl rfl) tryProg_ok.handlers tryProg_cleanup
  have hfit : ∀ f t ev c s R, tryProg.excSem.trace f (t ++ [ev]) → tryProg.snip f ev c s R →
      SnipFits (tryProg.excSem.inReg f) (frame f) c s R ev := fun _ _ _ _ _ _ ht h =>
    snippets_fit (tryProg.binaryOk rfl frame) tryProg_ok.built tryProg_calls (And.left (b := ∃ _, _) ht) h
  have r3 := r2.step (.instr (i := 0) (pair_one _ _) (.next rfl)
    (C88_footprint hs hfit r2 (pair_one _ _) (.next rfl) (by
      intro j w hj hw x hx hf
      by_cases h' : j = 1
      · subst h'
        rw [pair_two] at hw
        cases hw
        rcases hx with hx | ⟨b, hb, hx⟩
        · exact two_apart' hx hf
        · rw [List.mem_singleton.mp hb] at hx
          exact (two_apart hf).2.1 hx
      · simp [pair, setAt, hj, h'] at hw)))
  rw [pair_set_one] at r3
  have r4 := r3.step (.instr (i := 1) (pair_two _ _) (.next rfl)
    (C88_footprint hs hfit r3 (pair_two _ _) (.next rfl) (by
      intro j w hj hw x hx hf
      by_cases h' : j = 0
      · subst h'
        rw [pair_one] at hw
        cases hw
        rcases hx with hx | ⟨b, hb, hx⟩
        · exact two_apart' hf hx
        · rw [List.mem_singleton.mp hb] at hx
          exact two_apart' hf (.inr (.inl hx))
      · simp [pair, setAt, hj, h'] at hw)))
  rw [pair_set_two] at r4
  exact ⟨_, _, _, _, _, r4⟩

/-! ## Attacks on other threads -/

/-- **C88: this is so in every program.** If some function can get to a dangerous moment and some call of
a function which may return can get to its return, then a thread at the former can divert another
thread at the latter to any address. -/
theorem C88_cross {m : ProgSem} {f f' : Func} {ra ra' v : W} {a b : Act} {as bs : List Act} {l l' : List W}
    (h : PRun m (.run [⟨f, [], ra, ra, none⟩] []) (.run (a :: as) l)) (hd : m.danger a.func a.done)
    (h' : PRun m (.run [⟨f', [], ra', ra', none⟩] []) (.run (b :: bs) l'))
    (hc : m.complete b.func b.done) (hr : ¬ m.stays b.func) (hv : v ≠ b.ra) :
    ∃ T, CRun m (crew f f' ra ra') T ∧ T 1 = .hijacked v := by
  have r1 := (CRun.refl (m := m) (crew f f' ra ra')).thread 0 (q := .run (a :: as) l) h
  have r2 := r1.thread 1 (q := .run (b :: bs) l') h'
  have hov : ∃ bs', Overwritten (b :: bs) ({ b with slot := v } :: bs') := by
    have : ∀ bs : List Act, ∃ bs', Overwritten bs bs' := by
      intro bs
      induction bs with
      | nil => exact ⟨_, .nil⟩
      | cons x xs ih => obtain ⟨ys, h⟩ := ih; exact ⟨_, .cons x.slot h⟩
    obtain ⟨bs', h⟩ := this bs
    exact ⟨bs', .cons v h⟩
  obtain ⟨bs', hov⟩ := hov
  have r3 := r2.step (.cross (i := 0) (j := 1) (as := as) (l := l) rfl hd (setAt_same _ _ _) hov)
  have r4 := r3.step (.own (i := 1) (q := .hijacked v) (by
    rw [setAt_same]
    exact .hijack (a := { b with slot := v }) hc hr hv))
  exact ⟨_, r4, setAt_same _ _ _⟩

/-- Example for `C88_cross`. -/
example : ∃ T, CRun tryProg.excSem (crew 2 0 7 8) T ∧ T 1 = .hijacked 666 := by
  have r1 := (PRun.refl (m := tryProg.excSem) (.run [⟨2, [], 7, 7, none⟩] [])).step
    (.push (a := ⟨2, [], 7, 7, none⟩) tryProg_pushes tryProg_reg.2)
  have r2 := r1.step (.block (a := ⟨2, [.push], 7, 7, none⟩) tryProg_write)
  have q1 := (PRun.refl (m := tryProg.excSem) (.run [⟨0, [], 8, 8, none⟩] [])).step
    (.block (a := ⟨0, [], 8, 8, none⟩) (b := 0)
      (Small.startsX (b' := 0) [] (by decide) (by decide) (by decide +kernel)))
  have q2 := q1.step (.block (a := ⟨0, [.block 0], 8, 8, none⟩) (b := 1)
    (Small.startsX (b' := 1) [tryProg.edges[0]] (by decide) (by decide) (by decide +kernel)))
  exact C88_cross r2 (Small.dangerX (t := [.push]) tryProg_write (by decide)) q2
    (Small.endsX (b := 1) [tryProg.edges[0]] (by decide) (by decide) (by decide) (by decide)
      (by decide +kernel)) (Small.mayReturn (by decide)) (by decide)

/-- What `RegionOnly` leaves out are stored return addresses. -/
theorem needs_iff (g : W) (w : Worker) (x : W) :
    Needs g w x ↔ RegionOnly g w x ∨ ∃ b ∈ w.acts, InRange x b.at_ 8 := by
  cases w <;> rfl

/-- **C88 fails if threads may overwrite each other's return addresses**: under the very conditions of
`C88_threads_partial`, and although no thread touches the shadow region of another one, a return of the
second thread goes unchecked to any address, because the first thread has overwritten the return address
of a call which was not recorded, its function doing nothing dangerous. -/
theorem C88_refuted_cross : ∃ B co info R T bf plan g,
    (∀ frame, BinaryOk B {} {} co info R bf (fun _ => {}) frame) ∧
    Built {} [] co info R T bf plan ∧ (∀ f ∈ co.funcs, NoCallAtCheck {} co (bf f)) ∧
    (∀ f ∈ co.funcs, LeftOk [] co T bf f) ∧
    (∀ f ∈ co.funcs, NoRecursion T f) ∧ (∀ f ∈ co.funcs, TailsOk co T f) ∧
    (∀ f ∈ co.funcs, HandlersOk co (bf f) f) ∧
    (∀ f ∈ co.funcs, ∀ L, doLowering {} co f (some (T f)) = some (some L) → CleanupOnly co T f) ∧
    ∃ ra, ∀ frame v, v ≠ ra → TeamRun (semOn Flow co plan info (inRegOf {} T) (staysOf bf)) frame
      (B.Snippet {} (fun f => (T f).jit {}) co plan) RegionOnly g (.stopped 1 (.hijacked v)) := by
  refine ⟨_, _, _, _, _, _, _, twoRegions, fun frame => tryProg.binaryOk rfl frame, tryProg_ok.built,
    tryProg_calls, Small.allIn rfl rfl rfl, tryProg_ok.noRecursion (by decide +kernel), tryProg_tails, tryProg_ok.handlers,
    tryProg_cleanup, 0x402000, fun frame v hv => ?_⟩
  have b1 : tryProg.excSem.trace 0 ([] ++ [.block 0]) :=
    Small.startsX (b' := 0) [] (by decide) (by decide) (by decide +kernel)
  have b2 : tryProg.excSem.trace 0 ([.block 0] ++ [.block 1]) :=
    Small.startsX (b' := 1) [tryProg.edges[0]] (by decide) (by decide) (by decide +kernel)
  have b3 : tryProg.excSem.complete 0 [.block 0, .block 1] :=
    Small.endsX (b := 1) [tryProg.edges[0]] (by decide) (by decide) (by decide) (by decide)
      (by decide +kernel)
  have r0 := two_start frame (needs := RegionOnly) 2 0
  -- the second thread gets to its return
  have r1 := r0.step (.own (i := 1) (pair_two _ _) (.step (.block b1)) (others_two fun _ _ => rfl))
  rw [pair_set_two] at r1
  have r2 := r1.step (.own (i := 1) (pair_two _ _) (.step (.block b2)) (others_two fun _ _ => rfl))
  rw [pair_set_two] at r2
  -- the first one records its return address
  have hfit := snippets_fit (tryProg.binaryOk rfl frame) tryProg_ok.built tryProg_calls
    (f := 2) (by decide) (tryPush_snip (s := oneState) (R := 0x7000) (by decide))
  have hroom : HasRoom 0x100000 oneState := one_recorded.hasRoom.mpr (by decide)
  have hapart : Apart 0x100000 0x7000 16 oneState :=
    one_clear (ra := 0) (t := []) (by decide) ⟨2, [], 0, 0x7000⟩ (by simp)
  have hwithin := hfit.within one_recorded hapart hroom
  obtain ⟨s1, hx, hout⟩ : ∃ s1, Exits tryPush oneState s1 ∧
      ∀ x, ¬ SnipFoot 0x100000 0x7000 0x7000 16 x → s1.mem x = oneState.mem x := by
    cases hwithin with
    | exits s1 hp => exact ⟨s1, hp.ends (ends_nil _ _), hp.outside⟩
    | traps k s' hp =>
      exfalso
      cases hfit with
      | save k1 => exact tryProg_reg.2 k1
      | push k1 k2 k3 k4 =>
        have ha := hapart.mono k3
        rw [← k4] at ha
        obtain ⟨s'', hx', _⟩ := k2.run (one_recorded.pushSep ha (by decide))
        exact hx'.not_traps (traps_iff.2 ⟨s', hp.ends (ends_trap rfl)⟩)
  have r3 := r2.step (.own (i := 0) (pair_one _ _) (.step (.snippet tryProg_pushes
    (tryPush_snip (s := oneState) (by decide)) (one_clear (by decide)) hroom hx nofun))
    (others_one fun x hx => hout x fun h => (two_apart h).1 hx))
  rw [pair_set_one] at r3
  -- and overwrites the one of the second thread
  have r4 := r3.step (.own (i := 0) (pair_one _ _) (.step (.block tryProg_write))
    (others_one fun _ _ => rfl))
  rw [pair_set_one] at r4
  have r5 := r4.step (.own (i := 0) (s' := poked s1 0x9000 v) (pair_one _ _)
    (.step (.work (poked_spares (sep_of_le (by decide) (by decide) (by decide)))
      (.inl (Small.dangerX (t := [.push]) tryProg_write (by decide)))))
    (others_one fun x hx => write64_outRange _ _ _ _ fun h => by
      change InRange x 0x2000000 regionSize at hx
      unfold InRange regionSize at *
      bv_omega))
  rw [pair_set_one] at r5
  have e : (poked s1 0x9000 v).mem.read64 0x9000 = v := read64_write64 _ _ _
  have r6 := r5.step (.stop (i := 1) (pair_two _ _) (.step (.hijack b3 (Small.mayReturn (by decide))
    (fun h => hv (e.symm.trans h))))
    nofun)
  change TeamRun _ _ _ _ _ (.stopped 1 (.hijacked ((poked s1 0x9000 v).mem.read64 0x9000))) at r6
  rw [e] at r6
  exact r6

end

end Verif
