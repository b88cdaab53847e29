import Verif.Threads

/-!
C15: threads do not disturb each other's shadow stacks, under every interleaving of their
instructions.
-/

namespace Verif

variable {ι : Type} [DecidableEq ι]

/-- C15.  Whatever the other threads do, a thread which is in its own code has recorded
exactly what its own history of snippets says (a function of that history, by
`Replay.det`). -/
theorem C15_own_history {m0 m : Mach ι} (h0 : m0.Initial) (hr : MRun m0 m) {t : ι}
    (ht : (m.thr t).ctl = .idle) :
    ∃ l, Replay (m.thr t).hist l ∧ (∀ l', Replay (m.thr t).hist l' → l' = l) ∧
      Recorded (m.thr t).base l ((m.thr t).state m.mem) := by
  have := (h0.inv.run hr).thread t
  unfold TInv at this
  rw [ht] at this
  obtain ⟨l, h1, h2⟩ := this
  exact ⟨l, h1, fun l' h => h.det h1, h2⟩

/-- C15.  In the middle of a snippet a thread is where it would be if nobody else had run
since the snippet began: same position, registers and flags, and same contents of its
region, of the return address and of the bytes it uses below its stack pointer. -/
theorem C15_snippet_as_alone {m0 m : Mach ι} (h0 : m0.Initial) (hr : MRun m0 m) {t : ι}
    {w k : Code} {s0 : State} {ev : ShEv} {R : W} {n : Nat}
    (ht : (m.thr t).ctl = .busy w k s0 ev R n) :
    ∃ s, Path (SnipFoot (m.thr t).base R (s0.regs .rsp) n) w w s0 k s ∧
      s.regs = (m.thr t).cpu.regs ∧ s.flags = (m.thr t).cpu.flags ∧ s.gs = (m.thr t).cpu.gs ∧
      ∀ x, SnipFoot (m.thr t).base R (s0.regs .rsp) n x → s.mem x = m.mem x := by
  have := (h0.inv.run hr).thread t
  unfold TInv at this
  rw [ht] at this
  obtain ⟨l, _, _, _, s, h4, _, h6⟩ := this
  exact ⟨s, h4, h6.regs.symm, h6.flags.symm, h6.gs.symm, fun x hx => (h6.mem x hx).symm⟩

/-- C15.  When a snippet falls through it has had the effect on the thread's recorded
addresses which it has when the thread runs alone; in particular it would also have
fallen through alone. -/
theorem C15_finishes_as_alone {m0 m : Mach ι} (h0 : m0.Initial) (hr : MRun m0 m) {t : ι}
    {w : Code} {s0 : State} {ev : ShEv} {R : W} {n : Nat}
    (ht : (m.thr t).ctl = .busy w [] s0 ev R n) :
    ∃ l l' s', Replay (m.thr t).hist l ∧ ShStep ev l l' ∧ Exits w s0 s' ∧
      Recorded (m.thr t).base l' s' ∧
      AgreeOn (SnipFoot (m.thr t).base R (s0.regs .rsp) n) s' ((m.thr t).state m.mem) :=
  ((h0.inv.run hr).thread t).outcome ht

/-- C15.  A thread is killed only by a check of an address which its own history does not
have; it would also have been killed alone. -/
theorem C15_killed_as_alone {m0 m : Mach ι} (h0 : m0.Initial) (hr : MRun m0 m) {t : ι}
    {w k : Code} {i : Instr} {s0 s' : State} {ev : ShEv} {R : W} {n : Nat}
    (ht : (m.thr t).ctl = .busy w (i :: k) s0 ev R n)
    (hx : exec i ((m.thr t).state m.mem) = .trap s') :
    ∃ l, Replay (m.thr t).hist l ∧ ShDies ev l ∧ Traps w s0 :=
  ((h0.inv.run hr).thread t).kill ht hx

/-- C15.  A thread inside a snippet can always go on: it is never stuck, whatever the
others have done meanwhile. -/
theorem C15_progress {m0 m : Mach ι} (h0 : m0.Initial) (hr : MRun m0 m) {t : ι}
    {w k : Code} {s0 : State} {ev : ShEv} {R : W} {n : Nat}
    (ht : (m.thr t).ctl = .busy w k s0 ev R n) :
    ∃ x mem', MStep m (m.set t x mem') := by
  have := (h0.inv.run hr).thread t
  unfold TInv at this
  rw [ht] at this
  obtain ⟨l, _, _, _, s, h4, h5, h6⟩ := this
  cases k with
  | nil => exact ⟨_, _, .finish t w s0 ev R n ht⟩
  | cons i k =>
    have ag := exec_agree h6 h5.touches
    have stepOf : ∀ {k1 s1}, Go w (i :: k) s k1 s1 → ∃ x mem', MStep m (m.set t x mem') := by
      intro k1 s1 hg
      cases hg with
      | next e =>
        rw [e] at ag
        cases hx : exec i ((m.thr t).state m.mem) with
        | next a => exact ⟨_, _, .instr t w _ _ s0 ev R n a ht (.next hx)⟩
        | goto l a => rw [hx] at ag; exact ag.elim
        | trap a => rw [hx] at ag; exact ag.elim
      | goto e tg =>
        rw [e] at ag
        cases hx : exec i ((m.thr t).state m.mem) with
        | next a => rw [hx] at ag; exact ag.elim
        | goto l a =>
          rw [hx] at ag
          obtain ⟨rfl, _⟩ := ag
          exact ⟨_, _, .instr t w _ _ s0 ev R n a ht (.goto hx tg)⟩
        | trap a => rw [hx] at ag; exact ag.elim
    cases h5 with
    | exits s' hp => cases hp with | step _ hg _ => exact stepOf hg
    | traps k' s' hp =>
      cases hp with
      | refl => exact ⟨_, _, .kill t w k .illegal s0 ev R n _ ht rfl⟩
      | step _ hg _ => exact stepOf hg

/-! ## Projection to a machine with one thread -/

/-- Thread `t` of `m` looks exactly like the only thread of `n`. -/
structure SoloOf (m : Mach ι) (t : ι) (n : Mach Unit) : Prop where
  thread : n.thr () = m.thr t
  mem : ∀ x, (m.thr t).Owns x → n.mem x = m.mem x

theorem solo_set {n : Mach Unit} {x : TState} {mem : Mem} : (n.set () x mem).thr () = x := rfl

theorem Go.rev {F : W → Prop} {w k k1 : Code} {s s' s1 : State} {i : Instr}
    (h : AgreeOn F s s') (ht : Touches F i s) (hg : Go w (i :: k) s k1 s1) :
    ∃ s1', Go w (i :: k) s' k1 s1' ∧ AgreeOn F s1 s1' := by
  have := exec_agree h ht
  cases hg with
  | next e =>
    rw [e] at this
    cases hx : exec i s' with
    | next a => rw [hx] at this; exact ⟨a, .next hx, this.1⟩
    | goto l a => rw [hx] at this; exact this.elim
    | trap a => rw [hx] at this; exact this.elim
  | goto e t =>
    rw [e] at this
    cases hx : exec i s' with
    | next a => rw [hx] at this; exact this.elim
    | goto l a =>
      rw [hx] at this
      obtain ⟨rfl, h1, _⟩ := this
      exact ⟨a, .goto hx t, h1⟩
    | trap a => rw [hx] at this; exact this.elim

theorem touches_regs {F : W → Prop} {i : Instr} {s s' : State} (hr : s'.regs = s.regs)
    (hg : s'.gs = s.gs) (h : Touches F i s) : Touches F i s' := by
  have : accesses i s' = accesses i s := by
    cases i <;> simp only [accesses, State.ea, State.gsa, hr, hg]
  rw [Touches, this]; exact h

/-- C15.  For every execution of any number of threads and for each of them there is an
execution in which this thread is the only one and in which it has the same registers,
flags, region address, position, history and the same contents of the memory which it
owns. -/
theorem C15_solo {m0 m : Mach ι} (h0 : m0.Initial) (hr : MRun m0 m) (t : ι) :
    ∃ n0 n : Mach Unit, n0.Initial ∧ MRun n0 n ∧ SoloOf m t n := by
  have fresh : ∀ m1 : Mach ι, (m1.thr t).ctl = .off → (m1.thr t).hist = [] →
      ∃ n0 n : Mach Unit, n0.Initial ∧ MRun n0 n ∧ SoloOf m1 t n := by
    intro m1 e1 e2
    exact ⟨⟨m1.mem, fun _ => m1.thr t⟩, _, fun _ => ⟨e1, e2⟩, .refl, rfl, fun _ _ => rfl⟩
  induction hr with
  | refl => exact fresh m0 (h0 t).1 (h0 t).2
  | @step b c hrun hs ih =>
    obtain ⟨n0, n, hn0, hnr, hst, hsm⟩ := ih
    have inv := h0.inv.run hrun
    -- steps of other threads
    have other : ∀ u x mem', u ≠ t → c = b.set u x mem' →
        (∀ a, (b.thr t).Owns a → mem' a = b.mem a) →
        ∃ n0 n : Mach Unit, n0.Initial ∧ MRun n0 n ∧ SoloOf c t n := by
      intro u x mem' hu e hm
      have et : c.thr t = b.thr t := by rw [e]; simp [Mach.set, hu.symm]
      refine ⟨n0, n, hn0, hnr, hst.trans et.symm, fun a ha => ?_⟩
      rw [et] at ha
      rw [hsm a ha, e]
      exact (hm a ha).symm
    -- bring the lonely machine's memory up to date while the thread is in its own code
    have sync : (b.thr t).ctl = .idle → MRun n0 ⟨b.mem, fun _ => b.thr t⟩ := by
      intro e
      have := MStep.work (m := n) () (n.thr ()).cpu b.mem (by rw [hst]; exact e) rfl (by
        intro _ x hx
        rw [hst] at hx
        exact (hsm x hx).symm)
      have e2 : n.set () { n.thr () with cpu := (n.thr ()).cpu } b.mem =
          ⟨b.mem, fun _ => b.thr t⟩ := by
        simp only [Mach.set, hst]
        congr 1
      rw [e2] at this
      exact hnr.step this
    cases hs with
    | spawn u a s' e hfree hi =>
      by_cases hu : u = t
      · subst hu
        have st := MStep.spawn (m := (⟨b.mem, fun _ => { b.thr u with hist := [] }⟩ : Mach Unit))
          () a s' e (fun v hv => absurd rfl hv) hi
        refine ⟨⟨b.mem, fun _ => { b.thr u with hist := [] }⟩, _, fun _ => ⟨e, rfl⟩,
          (MRun.refl).step st, ?_, ?_⟩
        · simp [Mach.set]
        · intro x _; rfl
      · refine other u _ _ hu rfl fun a' ha' => ?_
        have hc := C14_init_empty hi
        refine hc.2.2.2.2.2 a' fun hr => hfree t (Ne.symm hu) a' (inRange_sub hr ?_) ha'
        rw [BitVec.sub_self]; decide
    | work u c' mem' e hg hm =>
      by_cases hu : u = t
      · subst hu
        have st := MStep.work (m := n) () c' mem' (by rw [hst]; exact e) (by rw [hst]; exact hg) (by
          intro _ x hx
          rw [hst] at hx
          rw [hsm x hx]; exact hm u x hx)
        refine ⟨n0, _, hn0, hnr.step st, ?_, fun x _ => rfl⟩
        simp [Mach.set, hst]
      · exact other u _ _ hu rfl fun a' ha' => hm t a' ha'
    | start u code ev R k e hstart hfree =>
      by_cases hu : u = t
      · subst hu
        have st := MStep.start (m := (⟨b.mem, fun _ => b.thr u⟩ : Mach Unit)) () code ev R k e
          hstart (fun v hv => absurd rfl hv)
        refine ⟨n0, _, hn0, (sync e).step st, ?_, fun x _ => rfl⟩
        simp [Mach.set]
      · exact other u _ _ hu rfl fun _ _ => rfl
    | instr u w k k' s0 ev R d s' e hg =>
      have hown := ((inv.thread u).instr e hg).2
      by_cases hu : u = t
      · subst hu
        have tinv := inv.thread u
        unfold TInv at tinv
        rw [e] at tinv
        obtain ⟨l, _, _, _, s, _, h5, h6⟩ := tinv
        obtain ⟨i, r, rfl⟩ := hg.cons
        have ht := h5.touches
        have ag : AgreeOn (SnipFoot (b.thr u).base R (s0.regs .rsp) d)
            ((b.thr u).state b.mem) ((n.thr ()).state n.mem) := by
          refine ⟨by rw [hst]; rfl, by rw [hst]; rfl, by rw [hst]; rfl, fun x hx => hsm x ?_⟩
          unfold TState.Owns
          rw [e]; exact hx
        obtain ⟨s1', hg', ag'⟩ := hg.rev ag (touches_regs h6.regs h6.gs ht)
        have st := MStep.instr (m := n) () w _ k' s0 ev R d s1' (by rw [hst]; exact e) hg'
        refine ⟨n0, _, hn0, hnr.step st, ?_, fun x hx => ?_⟩
        · have : s1'.cpu = s'.cpu := by
            simp only [State.cpu, ag'.regs, ag'.flags, ag'.gs]
          simp [Mach.set, hst, this]
        · have ex : (b.set u { b.thr u with cpu := s'.cpu, ctl := .busy w k' s0 ev R d } s'.mem).thr u
              = { b.thr u with cpu := s'.cpu, ctl := .busy w k' s0 ev R d } := by simp [Mach.set]
          rw [ex] at hx
          exact ag'.mem x hx
      · exact other u _ _ hu rfl fun a' ha' => hown a' (inv.apart t u (Ne.symm hu) a' ha')
    | finish u w s0 ev R d e =>
      by_cases hu : u = t
      · subst hu
        have st := MStep.finish (m := n) () w s0 ev R d (by rw [hst]; exact e)
        refine ⟨n0, _, hn0, hnr.step st, ?_, fun x hx => ?_⟩
        · simp [Mach.set, hst]
        · refine hsm x ?_
          have ex : (b.set u { b.thr u with ctl := .idle, hist := (b.thr u).hist ++ [ev] } b.mem).thr u
              = { b.thr u with ctl := .idle, hist := (b.thr u).hist ++ [ev] } := by simp [Mach.set]
          rw [ex] at hx
          unfold TState.Owns
          rw [e]; exact Or.inl hx
      · exact other u _ _ hu rfl fun _ _ => rfl
    | kill u w k i s0 ev R d s' e hx =>
      by_cases hu : u = t
      · subst hu
        obtain rfl := exec_trap hx
        have st := MStep.kill (m := n) () w k .illegal s0 ev R d _ (by rw [hst]; exact e) rfl
        refine ⟨n0, _, hn0, hnr.step st, ?_, fun x hx => ?_⟩
        · simp [Mach.set, hst]
        · have ex : (b.set u { b.thr u with ctl := .dead } b.mem).thr u
              = { b.thr u with ctl := .dead } := by simp [Mach.set]
          rw [ex] at hx
          exact hx.elim
      · exact other u _ _ hu rfl fun _ _ => rfl

/-! ## Example: two threads in the middle of a push at the same time -/

/-- The push emitted without dead registers. -/
def demoPush : Code :=
  [.push .r10, .push .r11, .load .r11 .rsp 16, .loadGs .r10 0, .store .r10 0 .r11,
    .lea .r10 .r10 8, .storeGs 0 .r10, .pop .r11, .pop .r10]

theorem demoPush_isPush : ∃ free, IsPush demoPush 0 16 free :=
  ⟨_, {}, none, false, 0, false, 0, 0, none, ⟨by decide, by decide, rfl⟩, rfl,
    ⟨by simp, by simp⟩, rfl, rfl, rfl, rfl⟩

def demoSp : Bool → W
  | false => 0x7000
  | true => 0x9000

def demoBase : Bool → W
  | false => 0x100000
  | true => 0x10000000

def demoMach : Mach Bool :=
  ⟨fun _ => 0, fun t => ⟨⟨fun r => if r = .rsp then demoSp t else 0, 0, 0⟩, 0, .off, []⟩⟩

theorem demo_spawn {m : Mach Bool} (t : Bool) (h1 : (m.thr t).ctl = .off)
    (h2 : ∀ u, u ≠ t → ∀ x, InRange x (demoBase t) regionSize → ¬ (m.thr u).Owns x) :
    ∃ m', MStep m m' ∧ (m'.thr t).ctl = .idle ∧ (m'.thr t).base = demoBase t ∧
      (m'.thr t).hist = [] ∧ (m'.thr t).cpu.regs = (m.thr t).cpu.regs ∧
      ∀ u, u ≠ t → m'.thr u = m.thr u :=
  ⟨_, .spawn t (demoBase t) _ h1 h2 rfl, by simp [Mach.set], by simp [Mach.set], by simp [Mach.set],
    by simp [Mach.set, State.cpu, TState.state], fun u hu => by simp [Mach.set, hu]⟩

theorem demo_apart (x : W) (t u : Bool) (h : u ≠ t)
    (h1 : InRange x (demoBase t) regionSize ∨ InRange x (demoSp t) 8 ∨
      InRange x (demoSp t - BitVec.ofNat 64 16) 16)
    (h2 : InRange x (demoBase u) regionSize ∨ InRange x (demoSp u) 8 ∨
      InRange x (demoSp u - BitVec.ofNat 64 16) 16) : False := by
  unfold InRange regionSize at h1 h2
  cases t <;> cases u <;> simp only [demoBase, demoSp] at h1 h2 <;> first | exact h rfl | skip
  all_goals
    rcases h1 with h1 | h1 | h1 <;> rcases h2 with h2 | h2 | h2 <;> bv_omega

/-- Both threads are between the first two instructions of a push. -/
theorem C15_example : ∃ m, demoMach.Initial ∧ MRun demoMach m ∧
    ∀ t, ∃ s0 ev R, (m.thr t).ctl = .busy demoPush (demoPush.drop 1) s0 ev R 16 := by
  obtain ⟨free, hp⟩ := demoPush_isPush
  have hi : demoMach.Initial := fun t => ⟨rfl, rfl⟩
  obtain ⟨m1, s1, c1, b1, h1, g1, o1⟩ := demo_spawn (m := demoMach) false rfl
    (by intro u _ x _ h; exact h)
  have o1 := o1 true (by decide)
  have r1 := (MRun.refl).step s1
  obtain ⟨m2, s2, c2, b2, h2, g2, o2⟩ := demo_spawn (m := m1) true (by rw [o1]; rfl) (by
    intro u hu x hx h
    cases u with
    | true => exact hu rfl
    | false =>
      unfold TState.Owns at h
      rw [c1, b1] at h
      exact demo_apart x true false (by decide) (.inl hx) (.inl h))
  have o2 := o2 false (by decide)
  have r2 := r1.step s2
  rw [o1] at g2
  have g1 : (m2.thr false).cpu.regs = (demoMach.thr false).cpu.regs := by rw [o2, g1]
  have c1 : (m2.thr false).ctl = .idle := by rw [o2, c1]
  have b1 : (m2.thr false).base = demoBase false := by rw [o2, b1]
  have sp1 : (m2.thr false).cpu.regs .rsp = demoSp false := by rw [g1]; rfl
  have sp2 : (m2.thr true).cpu.regs .rsp = demoSp true := by rw [g2]; rfl
  have ap : ∀ t (s : State), s.regs .rsp = demoSp t → Apart (demoBase t) (s.retAddr 0) 16 s := by
    intro t s e
    unfold State.retAddr
    rw [BitVec.ofInt_ofNat]
    constructor <;> rw [e] <;> cases t <;>
      exact sep_of_le (by decide) (by decide) (by decide)
  have room : ∀ (m : Mach Bool) t, MRun demoMach m → (m.thr t).ctl = .idle → (m.thr t).hist = [] →
      HasRoom (m.thr t).base ((m.thr t).state m.mem) := by
    intro m t hr hc hh
    obtain ⟨l, _, hu, hrec⟩ := C15_own_history hi hr hc
    rw [hh] at hu
    rw [← hu [] .nil] at hrec
    rw [hrec.hasRoom]; decide
  have free : ∀ (m : Mach Bool) (t : Bool), (m.thr t).cpu.regs .rsp = demoSp t →
      (∀ u, u ≠ t → ∀ x, (m.thr u).Owns x → InRange x (demoBase u) regionSize ∨
        InRange x (demoSp u) 8 ∨ InRange x (demoSp u - BitVec.ofNat 64 16) 16) →
      ∀ u, u ≠ t → ∀ x, InRange x (((m.thr t).state m.mem).retAddr 0) 8 ∨
        InRange x ((m.thr t).cpu.regs .rsp - BitVec.ofNat 64 16) 16 → ¬ (m.thr u).Owns x := by
    intro m t e how u hu x hx h
    have er : ((m.thr t).state m.mem).retAddr 0 = demoSp t := by
      show (m.thr t).cpu.regs .rsp + _ = _
      rw [e]; cases t <;> rfl
    rw [e, er] at hx
    exact demo_apart x t u hu (.inr hx) (how u hu x h)
  have s3 := MStep.start (m := m2) false demoPush _ _ _ c1
    (.push hp (by rw [b1]; exact ap false _ sp1) (room m2 false r2 c1 (by rw [o2, h1])))
    (free m2 false sp1 (by
      intro u hu x hx
      cases u with
      | false => exact absurd rfl hu
      | true =>
        unfold TState.Owns at hx
        rw [c2, b2] at hx
        exact .inl hx))
  have r3 := r2.step s3
  generalize e3 : m2.set false _ _ = m3 at s3 r3
  have t3 : m3.thr true = m2.thr true := by rw [← e3]; rfl
  have s4 := MStep.start (m := m3) true demoPush _ _ _ (by rw [t3]; exact c2)
    (.push hp (by rw [t3, b2]; exact ap true _ (by rw [← sp2]; rfl))
      (room m3 true r3 (by rw [t3]; exact c2) (by rw [t3]; exact h2)))
    (free m3 true (by rw [t3]; exact sp2) (by
      intro u hu x hx
      cases u with
      | true => exact absurd rfl hu
      | false =>
        rw [← e3] at hx
        have er : ((m2.thr false).state m2.mem).retAddr 0 = demoSp false := by
          show (m2.thr false).cpu.regs .rsp + _ = _
          rw [sp1]; rfl
        simp only [Mach.set, TState.Owns, if_true, SnipFoot, er, b1] at hx
        rw [show ((m2.thr false).state m2.mem).regs .rsp = demoSp false from sp1] at hx
        exact hx))
  have r4 := r3.step s4
  have c3 : ∃ s0 ev R, (m3.thr false).ctl = .busy demoPush demoPush s0 ev R 16 := by
    rw [← e3]; exact ⟨_, _, _, rfl⟩
  generalize e4 : m3.set true _ _ = m4 at s4 r4
  have c4 : ∃ s0 ev R, (m4.thr true).ctl = .busy demoPush demoPush s0 ev R 16 := by
    rw [← e4]; exact ⟨_, _, _, rfl⟩
  have t4 : m4.thr false = m3.thr false := by rw [← e4]; rfl
  obtain ⟨s0, ev, R, c3⟩ := c3
  obtain ⟨s0', ev', R', c4⟩ := c4
  have s5 := MStep.instr (m := m4) false demoPush demoPush (demoPush.drop 1) s0 ev R 16 _
    (by rw [t4]; exact c3) (.next rfl)
  have r5 := r4.step s5
  generalize e5 : m4.set false _ _ = m5 at s5 r5
  have t5 : m5.thr true = m4.thr true := by rw [← e5]; rfl
  have s6 := MStep.instr (m := m5) true demoPush demoPush (demoPush.drop 1) s0' ev' R' 16 _
    (by rw [t5]; exact c4) (.next rfl)
  refine ⟨_, hi, r5.step s6, ?_⟩
  intro t
  cases t
  · refine ⟨s0, ev, R, ?_⟩
    simp only [Mach.set, if_neg (show ¬ (false = true) by decide)]
    rw [← e5]; rfl
  · exact ⟨s0', ev', R', rfl⟩

end Verif
