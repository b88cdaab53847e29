import Verif.SignalTeam
import Verif.Props.SignalProgram
import Verif.Props.Multi

/-!
# C102: programs with several threads and signal handlers

Seen from a thread, the steps of the others are signals of a special kind.
-/

namespace Verif

/-! ## Signals among other threads -/

theorem Foreign.same {g : W} {K : W → Prop} {s s' : State} (h : Foreign g K s s') : Same K s s' :=
  ⟨h.regs, h.flags, h.gs, h.keeps⟩

theorem Foreign.adds {g : W} {K own : W → Prop} {s s' : State} (h : Foreign g K s s') : Adds g own s s' :=
  fun _ hl => ⟨[], nofun, hl.region h.gs h.region⟩

/-- Honest handlers are calm also if other threads interfere. -/
theorem among_calm {own : W → Prop} (hO : ∀ v, own v → ¬ GuardLike v) (g : W) :
    ∀ n, CalmSig (Among own g n) own g
  | 0 => ⟨fun h => h.same, fun h => h.adds, fun h _ _ => .region h.region, fun h => h.elim, fun h => h.elim⟩
  | n + 1 => by
    have H := among_calm hO g n
    have hO : OwnOk BeforePointer own := ⟨fun _ h => h, hO⟩
    refine ⟨?_, ?_, ?_, ?_, ?_⟩
    · rintro K s s' (⟨s1, s2, h1, h2, h3⟩ | h)
      · exact ⟨h3.regs, h3.flags, h3.gs, h3.keeps⟩
      · exact h.same
    · rintro K s s' (⟨s1, s2, h1, h2, h3⟩ | h)
      · intro l hl
        have hr1 := hl.region h1.gs h1.mem
        obtain ⟨⟨top, hr, _, ht⟩, _⟩ := (Conf.Over.start hr1).run H hO h2
        exact ⟨top, ht, hr.region (h3.gs.trans (hl.gs.trans hr.gs.symm)) fun x _ => by rw [h3.mem]⟩
      · exact h.adds
    · rintro K s s' l (⟨s1, s2, h1, h2, h3⟩ | h) hl _
      · have hr1 := hl.region h1.gs h1.mem
        obtain ⟨_, _, hk⟩ := (Conf.Over.start hr1).run H hO h2
        rw [h3.mem]
        exact (KeepsReal.region h1.mem).trans hk
      · exact .region h.region
    · rintro s s' ⟨s1, s2, q, leaf, h1, h2, h3⟩ l hl
      have hr1 := hl.region h1.gs h1.mem
      obtain ⟨⟨top, hr, _, ht⟩, _⟩ := (Conf.Over.start hr1).run H hO h2
      exact ⟨top, ht, hr.region h3.gs h3.mem⟩
    · rintro s s' l ⟨s1, s2, q, leaf, h1, h2, h3⟩ hl _
      have hr1 := hl.region h1.gs h1.mem
      obtain ⟨_, _, hk⟩ := (Conf.Over.start hr1).run H hO h2
      exact ((KeepsReal.region h1.mem).trans hk).trans (.region h3.mem)

theorem Foreign.back {own : W → Prop} {g : W} {K : W → Prop} {s s' : State} (h : Foreign g K s s') :
    ∀ n, (Among own g n).back K s s'
  | 0 => h
  | _ + 1 => .inr h

/-! ## Snippets of handlers -/

section
variable {own : W → Prop} {g : W} {sig : Sigs}

/-- A snippet of a handler from its beginning to where `k` is left of it. -/
abbrev Job.To (j : Job) (sig : Sigs) (g : W) (k : Code) (t : State) : Prop :=
  Interrupted (At (sig.back j.K) BeforePointer g) j.fits j.code j.code j.start k t

theorem Job.Ok.done {j : Job} (h : j.Ok own g) {t : State} (hr : j.To sig g [] t) :
    SigStep sig BeforePointer own g (.run j.start j.p j.leaf) (.run t j.p' j.leaf') := by
  cases h with
  | call h1 h2 h3 => exact .call h1 h2 h3 hr
  | ret h1 h2 h3 => exact .ret h1 h2 h3 hr
  | enter h1 h2 => exact .enter h1 h2 hr
  | leave h1 h2 => exact .leave h1 h2 hr

theorem Job.Ok.trap {j : Job} (h : j.Ok own g) {k : Code} {t : State} (hr : j.To sig g (.illegal :: k) t) :
    SigStep sig BeforePointer own g (.run j.start j.p j.leaf) .killed := by
  cases h with
  | call h1 h2 h3 => exact .callTrap h1 h2 h3 hr
  | ret h1 h2 h3 => exact .retTrap h1 h2 h3 hr
  | enter h1 h2 => exact .enterTrap h1 h2 hr
  | leave h1 h2 => exact .leaveTrap h1 h2 hr

theorem Job.Ok.jump {j : Job} (h : j.Ok own g) (n : Nat) {k : Code} {t s' : State} (hr : j.To sig g k t)
    (ha : sig.away t s') :
    SigStep sig BeforePointer own g (.run j.start j.p j.leaf) (.run s' (j.kept.drop n) none) := by
  cases h with
  | call h1 h2 h3 => exact .callJump n h1 h2 h3 hr ha
  | ret h1 h2 h3 => exact .retJump n h1 h2 h3 hr ha
  | enter h1 h2 => exact .enterJump n h1 h2 hr ha
  | leave h1 h2 => exact .leaveJump n h1 h2 hr ha

/-- A handler has got here, from the state `s1`. -/
def HandlerAt (own : W → Prop) (g : W) (sig : Sigs) (s1 : State) (mem : Mem) : Handler → Prop
  | .idle s p leaf => SigRun sig BeforePointer own g (.run s1 [] none) (.run (s.over mem) p leaf)
  | .busy j k s => SigRun sig BeforePointer own g (.run s1 [] none) (.run j.start j.p j.leaf) ∧ j.Ok own g ∧
      j.To sig g k (s.over mem)

/-- A handler has been interrupted, or memory has been changed by another thread. -/
theorem HandlerAt.signal {s1 : State} {mem mem' : Mem} {h : Handler} (hh : HandlerAt own g sig s1 mem h)
    (hb : ∀ K, (∀ x, K x → h.keeps x) → sig.back K (h.state.over mem) (h.state.over mem'))
    (hw : h.shut → ∀ x, InRange x g regionSize → mem' x = mem x) : HandlerAt own g sig s1 mem' h := by
  cases h with
  | idle s p leaf => exact .step hh (.signal (hb _ nofun))
  | busy j k s => exact ⟨hh.1, hh.2.1, .signal hh.2.2 ⟨hb _ fun _ h => h, hw⟩⟩

/-- A handler is left by a jump. -/
theorem HandlerAt.jump {s1 s' : State} {mem : Mem} {h : Handler} (hh : HandlerAt own g sig s1 mem h) (n : Nat)
    (ha : sig.away (h.state.over mem) s') :
    SigRun sig BeforePointer own g (.run s1 [] none) (.run s' (h.kept.drop n) none) := by
  cases h with
  | idle s p leaf => exact .step hh (.jump n ha)
  | busy j k s => exact .step hh.1 (hh.2.1.jump n hh.2.2 ha)

end

/-! ## Threads -/

section
variable (m : ProgSem) (frame : Func → Reg) (snip : Func → Ev → Code → State → W → Prop) (own : W → Prop)
  (depth : Nat) (g : W)

/-- The steps of a single thread among others. -/
abbrev crewStep : XProc → XProc → Prop :=
  Disturbed (threadStep m frame snip g) m snip (Among own g depth) g

/-- The thread has got to `p`, and the return addresses of the activations which have disappeared on its way
before their checks are in `S`. -/
def Arrived (S : W → Prop) (p : XProc) : Prop :=
  ∃ f pos st ps, Recorded g [] st ∧ Trail (crewStep m frame snip own depth g) (.start f pos st) (p :: ps) ∧
    ∀ v, XLost m (p :: ps) v ∨ XCut m (p :: ps) v → S v

/-- What the program of a thread is doing. -/
def WorkerAt (S : W → Prop) (mem : Mem) : Worker → Prop
  | .own s acts => acts = [] ∨ Arrived m frame snip own depth g S (.run (s.over mem) acts)
  | .busy w k ev s0 s a as => Arrived m frame snip own depth g S (.run s0 (a :: as)) ∧
      m.trace a.func (a.done ++ [ev]) ∧ snip a.func ev w s0 a.at_ ∧ Clear g (a :: as) 16 s0 ∧
      Interrupted (During (Among own g depth) g (Needed (a :: as) s0)) (fun k t => ev = .push → RoomFor g k t)
        w w s0 k (s.over mem)

/-- What a thread is doing: every handler has been started where the one below, or the program, had got to,
and has left alone what was interrupted. -/
def CrewAt (S : W → Prop) (w : Worker) : List Handler → Mem → Prop
  | [], mem => WorkerAt m frame snip own depth g S mem w
  | h :: hs, mem => ∃ m0 s1, CrewAt S w hs m0 ∧ w.acts ≠ [] ∧ hs.length < depth ∧
      Entered g ((Crew.state ⟨w, hs⟩).over m0) s1 ∧ HandlerAt own g (Among own g (depth - hs.length - 1)) s1 mem h ∧
      Crew.Unharmed ⟨w, hs⟩ g m0 mem

end

section
variable {m : ProgSem} {frame : Func → Reg} {snip : Func → Ev → Code → State → W → Prop} {own : W → Prop}
  {depth : Nat} {g : W}

theorem Arrived.mono {S S' : W → Prop} (hS : ∀ v, S v → S' v) {p : XProc}
    (hp : Arrived m frame snip own depth g S p) : Arrived m frame snip own depth g S' p := by
  obtain ⟨f, pos, st, ps, h1, h2, h3⟩ := hp
  exact ⟨f, pos, st, ps, h1, h2, fun v hv => hS v (h3 v hv)⟩

theorem Arrived.step {S : W → Prop} {s s' : State} {acts acts' : List XAct}
    (hp : Arrived m frame snip own depth g S (.run s acts))
    (hs : crewStep m frame snip own depth g (.run s acts) (.run s' acts'))
    (hq : ∀ up, acts = up ++ acts' → ∀ x ∈ up, m.stacked x.func x.done → S x.ra)
    (hc : ∀ a up, acts = a :: up ++ acts' → m.trace a.func (a.done ++ [.push]) → ¬ m.inReg a.func → S a.ra) :
    Arrived m frame snip own depth g S (.run s' acts') := by
  obtain ⟨f, pos, st, ps, h1, h2, h3⟩ := hp
  refine ⟨f, pos, st, _, h1, h2.step hs, ?_⟩
  rintro v ((⟨up, acts, s, s', e1, e2, x, hx, hk, rfl⟩ | hv) | (⟨a, up, acts, s, s', e1, e2, k1, k2, rfl⟩ | hv))
  · cases e2
    injection e1 with _ e1
    exact hq up e1 x hx hk
  · exact h3 v (.inl hv)
  · cases e2
    injection e1 with _ e1
    exact hc a up e1 k1 k2
  · exact h3 v (.inr hv)

/-- A step in which no activation disappears. -/
theorem Arrived.stay {S : W → Prop} {s s' : State} {acts acts' : List XAct}
    (hp : Arrived m frame snip own depth g S (.run s acts))
    (hs : crewStep m frame snip own depth g (.run s acts) (.run s' acts')) (hl : acts.length = acts'.length) :
    Arrived m frame snip own depth g S (.run s' acts') := by
  refine hp.step hs (fun up e x hx => ?_) fun a up e => ?_
  · have := congrArg List.length e
    rw [List.length_append] at this
    cases List.length_eq_zero_iff.1 (show up.length = 0 by omega)
    cases hx
  · have := congrArg List.length e
    simp only [List.cons_append, List.length_cons, List.length_append] at this
    omega

theorem WorkerAt.mono {S S' : W → Prop} (hS : ∀ v, S v → S' v) {mem : Mem} {w : Worker}
    (hw : WorkerAt m frame snip own depth g S mem w) : WorkerAt m frame snip own depth g S' mem w := by
  cases w with
  | own s acts => exact hw.imp id (Arrived.mono hS)
  | busy w k ev s0 s a as => exact ⟨hw.1.mono hS, hw.2⟩

theorem CrewAt.mono {S S' : W → Prop} (hS : ∀ v, S v → S' v) {w : Worker} :
    ∀ {hs : List Handler} {mem : Mem}, CrewAt m frame snip own depth g S w hs mem →
      CrewAt m frame snip own depth g S' w hs mem
  | [], _, h => WorkerAt.mono hS h
  | _ :: _, _, ⟨m0, s1, h1, h2⟩ => ⟨m0, s1, h1.mono hS, h2⟩

/-- The program has been interrupted, or memory has been changed by another thread. -/
theorem WorkerAt.signal {S : W → Prop} {mem mem' : Mem} {w : Worker}
    (hw : WorkerAt m frame snip own depth g S mem w) (hn : w.acts ≠ [])
    (hb : ∀ K, (∀ x, K x → w.keeps x) → (Among own g depth).back K (w.state.over mem) (w.state.over mem'))
    (hq : w.shut g mem → ∀ x, InRange x g regionSize → mem' x = mem x) :
    WorkerAt m frame snip own depth g S mem' w := by
  cases w with
  | own s acts =>
    rcases hw with rfl | hw
    · exact absurd rfl hn
    · cases acts with
      | nil => exact absurd rfl hn
      | cons a as => exact .inr (hw.stay (.signal (hb _ fun _ h => h)) rfl)
  | busy w k ev s0 s a as =>
    exact ⟨hw.1, hw.2.1, hw.2.2.1, hw.2.2.2.1, .signal hw.2.2.2.2 ⟨hb _ fun _ h => h, hq⟩⟩

theorem Crew.Unharmed.trans {c : Crew} {a b d : Mem} (h : c.Unharmed g a b) (h' : c.Unharmed g b d) :
    c.Unharmed g a d := by
  refine ⟨fun x hx => (h'.keeps x hx).trans (h.keeps x hx), fun hs x hx => ?_⟩
  refine (h'.shut ?_ x hx).trans (h.shut hs x hx)
  rcases hs with hs | hs
  · left
    cases hw : c.prog with
    | own => rw [hw] at hs; exact hs
    | busy =>
      rw [hw] at hs
      refine hs.imp_right fun k => ?_
      rw [← k]
      have := h.shut (.inl (by rw [hw]; exact .inr k))
      exact read64_eq _ _ _ fun x hx => this x (inRange_sub hx (by simp [regionSize]))
  · exact .inr hs

/-- What is being executed is interrupted, or memory is changed by another thread. -/
theorem CrewAt.signal {S : W → Prop} {w : Worker} {hs : List Handler} {mem mem' : Mem}
    (h : CrewAt m frame snip own depth g S w hs mem) (hn : w.acts ≠ [])
    (hb : ∀ K, (∀ x, K x → Crew.keeps ⟨w, hs⟩ x) → (Among own g (depth - hs.length)).back K
      ((Crew.state ⟨w, hs⟩).over mem) ((Crew.state ⟨w, hs⟩).over mem'))
    (hu : Crew.Unharmed ⟨w, hs⟩ g mem mem') : CrewAt m frame snip own depth g S w hs mem' := by
  cases hs with
  | nil => exact WorkerAt.signal h hn (fun K hK => hb K fun x hx => .inl (hK x hx)) fun k => hu.shut (.inl k)
  | cons h' hs =>
    obtain ⟨m0, s1, h1, h2, h3, h4, h5, h6⟩ := h
    refine ⟨m0, s1, h1, h2, h3, h4, h5.signal (fun K hK => ?_) fun k => hu.shut (.inr ⟨_, List.mem_cons_self .., k⟩),
      h6.trans ⟨fun x hx => hu.keeps x ?_, fun hx => hu.shut ?_⟩⟩
    · exact hb K fun x hx => .inr ⟨_, List.mem_cons_self .., hK x hx⟩
    · exact hx.imp_right fun ⟨h, hh, k⟩ => ⟨h, List.mem_cons_of_mem _ hh, k⟩
    · exact hx.imp_right fun ⟨h, hh, k⟩ => ⟨h, List.mem_cons_of_mem _ hh, k⟩

/-- A thread does not notice changes of memory on which it does not rely. -/
theorem CrewAt.unaware {S : W → Prop} {w : Worker} {hs : List Handler} {mem mem' : Mem}
    (h : CrewAt m frame snip own depth g S w hs mem)
    (hm : ∀ x, InRange x g regionSize ∨ Crew.keeps ⟨w, hs⟩ x → mem' x = mem x) :
    CrewAt m frame snip own depth g S w hs mem' := by
  by_cases hn : w.acts = []
  · cases hs with
    | cons => obtain ⟨_, _, _, h2, _⟩ := h; exact absurd hn h2
    | nil =>
      cases w with
      | own s acts => exact .inl hn
      | busy => cases hn
  · have hf : ∀ K, (∀ x, K x → Crew.keeps ⟨w, hs⟩ x) →
        Foreign g K ((Crew.state ⟨w, hs⟩).over mem) ((Crew.state ⟨w, hs⟩).over mem') := fun K hK =>
      ⟨rfl, rfl, rfl, fun x hx => hm x (.inl hx), fun x hx => hm x (.inr (hK x hx))⟩
    exact h.signal hn (fun K hK => (hf K hK).back _) ⟨fun x hx => hm x (.inr hx), fun _ x hx => hm x (.inl hx)⟩

/-- A handler returns. -/
theorem CrewAt.resume {S : W → Prop} {w : Worker} {hs : List Handler} {mem : Mem} {s : State}
    (h : CrewAt m frame snip own depth g S w (.idle s [] none :: hs) mem) :
    CrewAt m frame snip own depth g S w hs mem := by
  obtain ⟨m0, s1, h1, h2, h3, h4, h5, h6⟩ := h
  refine h1.signal h2 (fun K hK => ?_) h6
  rw [show depth - hs.length = depth - hs.length - 1 + 1 by omega]
  exact .inl ⟨s1, _, h4, h5, rfl, rfl, rfl, rfl, fun x hx => h6.keeps x (hK x hx)⟩

/-- A handler makes a step. -/
theorem CrewAt.top {S : W → Prop} {w : Worker} {hs : List Handler} {mem mem' : Mem} {h h' : Handler}
    (hc : CrewAt m frame snip own depth g S w (h :: hs) mem)
    (hst : ∀ sig s1, HandlerAt own g sig s1 mem h → HandlerAt own g sig s1 mem' h')
    (hu : Crew.Unharmed ⟨w, hs⟩ g mem mem') : CrewAt m frame snip own depth g S w (h' :: hs) mem' := by
  obtain ⟨m0, s1, h1, h2, h3, h4, h5, h6⟩ := hc
  exact ⟨m0, s1, h1, h2, h3, h4, hst _ _ h5, h6.trans hu⟩

theorem Crew.Unharmed.refl {c : Crew} {mem : Mem} : c.Unharmed g mem mem := ⟨fun _ _ => rfl, fun _ _ _ => rfl⟩

/-- A handler is left by a jump. -/
theorem CrewAt.away {S : W → Prop} {w : Worker} {hs : List Handler} {mem : Mem} {s s' : State} {p : List W}
    {leaf : Option (Reg × W)} (h : CrewAt m frame snip own depth g S w (.idle s p leaf :: hs) mem)
    (hj : Jumped g (s.over mem) s') : ∃ m0, CrewAt m frame snip own depth g S w hs m0 ∧
      (Among own g (depth - hs.length)).away ((Crew.state ⟨w, hs⟩).over m0) s' ∧
      Crew.Unharmed ⟨w, hs⟩ g m0 mem := by
  obtain ⟨m0, s1, h1, h2, h3, h4, h5, h6⟩ := h
  refine ⟨m0, h1, ?_, h6⟩
  rw [show depth - hs.length = depth - hs.length - 1 + 1 by omega]
  exact ⟨s1, _, _, _, h4, h5, hj⟩

/-- Steps of a thread. -/
theorem CrewAt.step {S : W → Prop} {mem mem' : Mem} {c c' : Crew}
    (h : CrewAt m frame snip own depth g S c.prog c.hands mem) (hst : CrewStep m frame snip own depth g mem c mem' c')
    (hq : ∀ up, c.prog.acts = up ++ c'.prog.acts → ∀ x ∈ up, m.stacked x.func x.done → S x.ra)
    (hc : ∀ a up, c.prog.acts = a :: up ++ c'.prog.acts → m.trace a.func (a.done ++ [.push]) →
      ¬ m.inReg a.func → S a.ra) :
    CrewAt m frame snip own depth g S c'.prog c'.hands mem' := by
  cases hst with
  | @own s s' acts acts' hst =>
    rcases (show _ ∨ _ from h) with rfl | h
    · exact absurd hst threadStep_nil
    · exact .inr (h.step (.step hst) hq hc)
  | begin h1 h2 h3 =>
    exact ⟨(show _ ∨ _ from h).resolve_left (by simp), h1, h2, h3, .refl⟩
  | instr h1 h2 =>
    obtain ⟨k1, k2, k3, k4, k5⟩ := h
    exact ⟨k1, k2, k3, k4, .instr k5 h1 h2⟩
  | finish h1 =>
    obtain ⟨k1, k2, k3, k4, k5⟩ := h
    exact .inr (k1.stay (.snippet k2 k3 k4 k5 h1) rfl)
  | signal h1 h2 h3 h4 => exact ⟨mem, _, h, h2, h1, h3, .refl, h4⟩
  | @work w hs s s' p leaf h1 h2 h3 h4 =>
    exact h.top (fun sig s1 k => .step k (.work h1 h2 h3)) h4
  | unwind n => exact h.top (fun sig s1 k => .step k (.unwind n)) .refl
  | @beginH w hs s j h1 h2 =>
    refine h.top (fun sig s1 k => ⟨?_, h1, ?_⟩) .refl
    · rw [h2]; exact k
    · rw [Job.To, h2]; exact .refl
  | instrH h1 h2 h3 => exact h.top (fun sig s1 k => ⟨k.1, k.2.1, .instr k.2.2 h1 h2⟩) h3
  | finishH => exact h.top (fun sig s1 k => .step k.1 (k.2.1.done k.2.2)) .refl
  | resume => exact h.resume
  | @jump w h' hs s s' p leaf n h1 h2 =>
    obtain ⟨m0, k1, k2, k3⟩ := h.away h1
    obtain ⟨m1, s1, j1, j2, j3, j4, j5, j6⟩ := k1
    refine ⟨m1, s1, j1, j2, j3, j4, j5.jump n k2, (j6.trans ⟨fun x hx => k3.keeps x ?_, fun hx => k3.shut ?_⟩).trans h2⟩
    · exact hx.imp_right fun ⟨h, hh, k⟩ => ⟨h, List.mem_cons_of_mem _ hh, k⟩
    · exact hx.imp_right fun ⟨h, hh, k⟩ => ⟨h, List.mem_cons_of_mem _ hh, k⟩
  | @leave s0 s s' p leaf u up a as h1 h2 =>
    obtain ⟨m0, k1, k2, k3⟩ := h.away h1
    refine .inr (((show _ ∨ _ from k1).resolve_left (by simp)).step (.jump k2 fun b hb => ?_) hq hc)
    refine read64_eq _ _ _ fun x hx => ?_
    refine (h2 x ⟨b, hb, hx⟩).trans (k3.keeps x (.inl ⟨b, ?_, hx⟩))
    exact List.mem_append_right (u :: up) hb
  | @escape w k ev s0 t s s' p leaf a up b bs h1 h2 h3 =>
    obtain ⟨m0, k1, k2, k3⟩ := h.away h1
    obtain ⟨j1, j2, j3, j4, j5⟩ := k1
    exact .inr (j1.step (.escape j2 j3 j4 j5 h2 k2 h3) hq hc)

/-! ## What holds of a thread -/

variable {writes : Func → Prop}

/-- A snippet which has been interrupted leaves a stack behind, unless it searches for an address which has been
overwritten. -/
theorem UXInv.partway {gone : W → Prop} (hs : Sound m writes)
    (hfit : ∀ f t ev c s R, m.trace f (t ++ [ev]) → snip f ev c s R →
      SnipFits (m.inReg f) (frame f) c s R ev)
    {sig : Sigs} (H : CalmSig sig own g) (hO : ∀ v, own v → ¬ GuardLike v) {s t : State} {a : XAct}
    {as : List XAct} {l : List W} (hi : UXInv m writes frame g gone s (a :: as) l) {ev : Ev} {code k : Code}
    (ht : m.trace a.func (a.done ++ [ev])) (hsn : snip a.func ev code s a.at_) (hcl : Clear g (a :: as) 16 s)
    (hr : Interrupted (During sig g (Needed (a :: as) s)) (fun k t => ev = .push → RoomFor g k t) code code s k t)
    (hret : ev = .check → s.mem.read64 a.at_ = a.ra ∧ ∀ l, Recorded g l s → ∀ v ∈ l, ¬ GuardLike v) :
    ∃ l, Recorded g l t := by
  have ha := hcl a (by simp)
  cases hfit _ _ _ _ _ _ ht hsn with
  | @push d n free hn hc hle hR =>
    have ha' : Apart g (s.retAddr d) n s := by rw [hR]; exact ha.mono hle
    have hr := hr.room (fits' := RoomFor g) fun _ _ h => h rfl
    obtain ⟨T, _, hrec⟩ := (hc.interrupted hi.recorded ha' (honest := False)
      ((H.wider (own' := fun _ => True) fun _ _ => trivial).duringPush
        (Relies.needed (List.mem_cons_self ..) hle hR)) (fun h => h.elim) hr).2.2.2.2 trivial
    exact ⟨_, hrec⟩
  | @save d hn hc hR =>
    have ha' : Sep (s.retAddr d) 8 g regionSize := by rw [hR]; exact ha.ret
    obtain ⟨_, _, _, ⟨T, _, hrec⟩, _⟩ := hc.interrupted hi.recorded ha' (honest := False) (scratch := False)
      (H.duringReg (Relies.needed (List.mem_cons_self ..) (Nat.zero_le _) hR)) hr
    exact ⟨_, hrec⟩
  | @check d n free hn hc hle hR =>
    have ha' : Apart g (s.retAddr d) n s := by rw [hR]; exact ha.mono hle
    obtain ⟨he, hgl⟩ := hret rfl
    have hgl := hgl _ hi.recorded
    rcases hi.inv.shadow with ⟨_, _, j, l', e', hj, ham⟩ | ⟨hno, _⟩
    · change l = j ++ a.ra :: l' at e'
      subst e'
      have hv : s.mem.read64 (s.retAddr d) = a.ra := by rw [hR, he]
      obtain ⟨L, _, T, _, hrec⟩ := (hc.interrupted hi.recorded ha'
        (Rem := Above (fun v => ¬ GuardLike v) a.ra l') (honest := True)
        (H.duringHonest hO (Relies.needed (List.mem_cons_self ..) hle hR))
        (by rw [hv]; exact Above.search (fun _ _ h => h) fun _ => hgl _ (by simp))
        (fun T hT => Above.start (fun v hv => hO v (hT v hv)) fun v hv => hgl v (by simp [hv])) hr).2.2.2 trivial
      exact ⟨_, hrec⟩
    · exact absurd ⟨hs.check _ _ ht, hn⟩ hno
  | @compare hn hc hR =>
    have hreg : s.regs (frame a.func) = a.ra :=
      Option.some.inj ((hi.inv.ok (a.abs frame s) (by simp)).reg hn (hs.check _ _ ht))
    obtain ⟨_, _, _, ⟨T, _, hrec⟩, _⟩ := hc.interrupted hi.recorded (by rw [hR, (hret rfl).1, hreg])
      (honest := False) (scratch := False)
      (H.duringReg (Relies.needed (List.mem_cons_self ..) (Nat.zero_le _) hR)) hr
    exact ⟨_, hrec⟩

/-- What a handler which has been interrupted leaves behind. -/
theorem HandlerAt.recorded {sig : Sigs} (H : CalmSig sig own g) (hO : ∀ v, own v → ¬ GuardLike v) {s1 : State}
    {l : List W} (h1 : Recorded g l s1) {mem : Mem} {h : Handler} (hh : HandlerAt own g sig s1 mem h) :
    ∃ l, Recorded g l (h.state.over mem) := by
  have hO : OwnOk BeforePointer own := ⟨fun _ h => h, hO⟩
  cases h with
  | idle s p leaf =>
    obtain ⟨⟨top, hr, _⟩, _⟩ := (Conf.Over.start h1).run H hO hh
    exact ⟨_, hr⟩
  | busy j k s =>
    obtain ⟨k1, k2, k3⟩ := hh
    have H' : CalmSig ⟨sig.back, fun s s' => s' = s⟩ own g :=
      ⟨H.same, H.adds, H.real, fun e l hl => ⟨[], nofun, e ▸ hl⟩, fun e _ _ => e ▸ .refl _ _⟩
    have k4 : SigStep ⟨sig.back, fun s s' => s' = s⟩ BeforePointer own g (.run j.start j.p j.leaf)
      (.run (s.over mem) (j.kept.drop 0) none) := k2.jump 0 k3 rfl
    obtain ⟨⟨top, hr, _⟩, _⟩ := ((Conf.Over.start h1).run H hO k1).step H' hO k4
    exact ⟨_, hr⟩

/-- The program is not in a check which may fail. -/
def Worker.fair (g : W) : Worker → Prop
  | .own _ _ => True
  | .busy _ _ ev s0 _ a _ => ev = .check →
      s0.mem.read64 a.at_ = a.ra ∧ ∀ l, Recorded g l s0 → ∀ v ∈ l, ¬ GuardLike v

variable (hs : Sound m writes)
  (hfit : ∀ f t ev c s R, m.trace f (t ++ [ev]) → snip f ev c s R →
    SnipFits (m.inReg f) (frame f) c s R ev)
  (hO : ∀ v, own v → ¬ GuardLike v)
include hs hfit hO

theorem Arrived.inv {S : W → Prop} {s : State} {acts : List XAct}
    (h : Arrived m frame snip own depth g S (.run s acts)) :
    ∃ gone l, UXInv m writes frame g gone s acts l := by
  obtain ⟨f, pos, st, ps, h1, h2, _⟩ := h
  obtain ⟨l, h⟩ := disturbed_inv hs (fun _ _ => threadStep_refines hfit) hfit (among_calm hO g depth) hO h1 h2 rfl
  exact ⟨_, l, h⟩

theorem CrewAt.recorded {S : W → Prop} {w : Worker} (hw : w.fair g) (hn : w.acts ≠ []) :
    ∀ {hs' : List Handler} {mem : Mem}, CrewAt m frame snip own depth g S w hs' mem →
      ∃ l, Recorded g l ((Crew.state ⟨w, hs'⟩).over mem)
  | [], mem, h => by
    cases w with
    | own s acts =>
      obtain ⟨_, l, hi⟩ := ((show _ ∨ _ from h).resolve_left hn).inv hs hfit hO
      exact ⟨l, hi.recorded⟩
    | busy w k ev s0 s a as =>
      obtain ⟨k1, k2, k3, k4, k5⟩ := h
      obtain ⟨_, l, hi⟩ := k1.inv hs hfit hO
      exact hi.partway hs hfit (among_calm hO g depth) hO k2 k3 k4 k5 hw
  | h' :: hs', mem, ⟨m0, s1, h1, h2, h3, h4, h5, h6⟩ => by
    obtain ⟨l, hl⟩ := CrewAt.recorded hw hn h1
    exact h5.recorded (among_calm hO g _) hO (hl.region h4.gs h4.mem)

/-- Handlers are not killed. -/
theorem CrewAt.alive {S : W → Prop} {w : Worker} (hw : w.fair g) {hs' : List Handler} {mem : Mem} {j : Job}
    {k : Code} {ins : Instr} {s s' : State}
    (h : CrewAt m frame snip own depth g S w (.busy j (ins :: k) s :: hs') mem) :
    exec ins (s.over mem) ≠ .trap s' := by
  intro hx
  obtain rfl := exec_trap hx
  obtain ⟨m0, s1, h1, h2, h3, h4, ⟨h5, h6, h7⟩, _⟩ := h
  obtain ⟨l, hl⟩ := h1.recorded hs hfit hO hw h2
  have hO : OwnOk BeforePointer own := ⟨fun _ h => h, hO⟩
  exact (((Conf.Over.start (hl.region h4.gs h4.mem)).run (among_calm hO.real g _) hO h5).step
    (among_calm hO.real g _) hO (h6.trap h7)).elim

end

/-! ## Processes -/

section
variable {m : ProgSem} {writes : Func → Prop} {frame : Func → Reg}
  {snip : Func → Ev → Code → State → W → Prop} {own : W → Prop} {depth : Nat} {g : Nat → W}

/-- Every thread of a process makes steps of a single thread. -/
theorem Trail.crews {mem0 : Mem} {qs : List CrewsProc}
    (h : Trail (CrewsStep m frame snip own depth g) (.run mem0 fun _ => none) qs) :
    match qs with
    | .run mem T :: ps => ∀ i c, T i = some c → CrewAt m frame snip own depth (g i)
        (fun v => CrewsLost m (.run mem T :: ps) i v ∨ CrewsCut m (.run mem T :: ps) i v) c.prog c.hands mem
    | .stopped i q :: ps => ∃ mem T c, ps.head? = some (.run mem T) ∧ T i = some c ∧
        CrewStop m frame snip (g i) mem c q ∧ CrewAt m frame snip own depth (g i)
        (fun v => CrewsLost m ps i v ∨ CrewsCut m ps i v) c.prog c.hands mem
    | [] => True := by
  induction h with
  | start => intro i w h; cases h
  | @step p q ps _ hst ih =>
    -- the thread which makes the step, and the others
    have each : ∀ {mem mem' : Mem} {T : Nat → Option Crew} {i : Nat} {c' : Option Crew},
        (∀ i c, T i = some c → CrewAt m frame snip own depth (g i)
          (fun v => CrewsLost m (.run mem T :: ps) i v ∨ CrewsCut m (.run mem T :: ps) i v) c.prog c.hands mem) →
        Apiece g T i mem mem' →
        (∀ S : W → Prop,
          (∀ v, CrewsLost m (.run mem T :: ps) i v ∨ CrewsCut m (.run mem T :: ps) i v → S v) →
          (∀ c0 c up, T i = some c0 → c' = some c → c0.prog.acts = up ++ c.prog.acts →
            ∀ x ∈ up, m.stacked x.func x.done → S x.ra) →
          (∀ c0 c a up, T i = some c0 → c' = some c → c0.prog.acts = a :: up ++ c.prog.acts →
            m.trace a.func (a.done ++ [.push]) → ¬ m.inReg a.func → S a.ra) →
          ∀ c, c' = some c → CrewAt m frame snip own depth (g i) S c.prog c.hands mem') →
        ∀ j c, setAt T i c' j = some c → CrewAt m frame snip own depth (g j)
          (fun v => CrewsLost m (.run mem' (setAt T i c') :: .run mem T :: ps) j v ∨
            CrewsCut m (.run mem' (setAt T i c') :: .run mem T :: ps) j v) c.prog c.hands mem' := by
      intro mem mem' T i c' ih ho hi j c hj
      by_cases e : j = i
      · subst e
        refine hi _ (fun v => Or.imp .inr .inr) (fun c0 c up e0 e eu x hx hk =>
          .inl (.inl ⟨mem, mem', T, _, c0, c, up, rfl, rfl, e0, ?_, eu, x, hx, hk, rfl⟩))
          (fun c0 c a up e0 e eu h1 h2 =>
          .inr (.inl ⟨mem, mem', T, _, c0, c, a, up, rfl, rfl, e0, ?_, eu, h1, h2, rfl⟩))
          c (by rwa [setAt_same] at hj)
        · rw [setAt_same, e]
        · rw [setAt_same, e]
      · rw [setAt_other _ _ e] at hj
        exact ((ih j c hj).unaware (ho j c e hj)).mono fun v => Or.imp .inr .inr
    cases hst with
    | @step mem mem' T i c c' hi hst ho =>
      refine each ih ho fun S hS hn hc c1 e => ?_
      cases e
      exact ((ih i c hi).mono hS).step hst (fun up => hn c c' up hi rfl) fun a up => hc c c' a up hi rfl
    | @stop mem T i c q hi hst => exact ⟨mem, T, c, rfl, hi, hst, ih i c hi⟩
    | @spawn mem T i s f p hi hr ho =>
      refine each ih ho fun S hS _ _ c e => ?_
      cases e
      exact .inr ⟨f, p, s, [], hr, .start, fun v hv => hv.elim nofun nofun⟩
    | exit hi => exact each ih (fun _ _ _ _ _ _ => rfl) nofun

variable (hs : Sound m writes)
  (hfit : ∀ f t ev c s R, m.trace f (t ++ [ev]) → snip f ev c s R →
    SnipFits (m.inReg f) (frame f) c s R ev)
  (hO : ∀ v, own v → ¬ GuardLike v)
include hs hfit hO

/-- How a thread comes to an end, if not in a handler. -/
theorem CrewAt.stop {g : W} {S : W → Prop} {mem : Mem} {c : Crew} {q : XProc}
    (h : CrewAt m frame snip own depth g S c.prog c.hands mem) (hst : CrewStop m frame snip g mem c q) :
    (c.prog.acts ≠ [] ∧ Arrived m frame snip own depth g S (.run (c.prog.base mem) c.prog.acts) ∧
      crewStep m frame snip own depth g (.run (c.prog.base mem) c.prog.acts) q) ∨
    (q = .killed ∧ ¬ c.prog.fair g ∧ c.hands ≠ []) := by
  cases hst with
  | @own s acts _ h1 h2 =>
    rcases (show _ ∨ _ from h) with rfl | h
    · exact absurd h1 threadStep_nil
    · refine .inl ⟨fun e => ?_, h, .step h1⟩
      cases (show acts = [] from e)
      exact threadStep_nil h1
  | accept h1 =>
    obtain ⟨k1, k2, k3, k4, k5⟩ := h
    exact .inl ⟨nofun, k1, .accept k2 k3 k4 (k5.room fun _ _ _ => trivial) h1⟩
  | trap h1 =>
    obtain rfl := exec_trap h1
    obtain ⟨k1, k2, k3, k4, k5⟩ := h
    exact .inl ⟨nofun, k1, .trap k2 k3 k4 k5⟩
  | trapH h1 =>
    exact .inr ⟨rfl, fun hw => h.alive hs hfit hO hw h1, nofun⟩

/-- The conditions suffice for programs with several threads and signals. -/
theorem Sound.crews (depth : Nat) (g : Nat → W) : CrewsProtected m frame snip own depth g where
  recorded mem0 mem T ps i s a as h hi hd := by
    obtain ⟨f, pos, st, qs, h1, h2, _⟩ := (show _ ∨ _ from h.crews i _ hi).resolve_left (by simp)
    exact (hs.disturbed (fun _ _ => threadStep_refines hfit) hfit (among_calm hO _ depth) hO f).recorded
      _ _ _ _ _ h1 h2.steps hd
  unchecked mem0 ps i v h := by
    obtain ⟨mem, T, c, _, hi, hst, hc⟩ := h.crews
    rcases hc.stop hs hfit hO hst with ⟨_, ⟨f, pos, st, qs, h1, h2, _⟩, h3⟩ | ⟨e, _⟩
    · exact (hs.disturbed (fun _ _ => threadStep_refines hfit) hfit (among_calm hO _ depth) hO f).unchecked
        _ _ v h1 (h2.steps.step h3)
    · cases e
  accepted mem0 mem T ps i v h hst := by
    cases hst with
    | @stop _ _ _ c _ hi hst =>
      rcases (h.crews i c hi).stop hs hfit hO hst with ⟨_, ⟨f, pos, st, qs, h1, h2, hS⟩, h3⟩ | ⟨e, _⟩
      · rcases (hs.disturbed (fun _ _ => threadStep_refines hfit) hfit (among_calm hO _ depth) hO f).accepted
          _ _ _ _ _ _ h1 h2 h3 with k | k | k | k | k
        · exact .inl k
        · exact .inr (.inl ⟨c, hi, k⟩)
        · exact .inr (.inr ((hS v (.inl k)).imp_right .inl))
        · exact .inr (.inr ((hS v (.inr k)).imp_right .inl))
        · exact .inr (.inr (.inr (.inr k)))
      · cases e
  quiet mem0 mem T ps i c a as l h hi ha he hl hgl hst := by
    cases hst with
    | @stop _ _ _ c' _ hi' hst =>
      cases hi.symm.trans hi'
      rcases (h.crews i c hi).stop hs hfit hO hst with ⟨_, ⟨f, pos, st, qs, h1, h2, _⟩, h3⟩ | ⟨_, hw, _⟩
      · rw [ha] at h2 h3
        exact (hs.disturbed (fun _ _ => threadStep_refines hfit) hfit (among_calm hO _ depth) hO f).quiet
          _ _ _ _ _ _ h1 h2.steps he hl hgl h3
      · refine hw ?_
        cases hc : c.prog with
        | own => trivial
        | busy w k ev s0 s a' as' =>
          rw [hc] at ha he hl
          cases (show a' :: as' = a :: as from ha)
          exact fun _ => ⟨he, fun l' hl' => by rw [hl'.unique hl]; exact hgl⟩
  handlers mem0 mem T ps i s acts h' hs' h hi hst := by
    cases hst with
    | @stop _ _ _ c' _ hi' hst =>
      cases hi.symm.trans hi'
      cases hst with
      | trapH h1 =>
        exact (h.crews i _ hi).alive hs hfit hO (show Worker.fair (g i) (.own s acts) from trivial) h1

end

section
variable {B : Binary} {fl : InstrFlags} {skip : List Nat} {jf : JitFlags} {co : CodeObj} {info : StackInfo}
  {R : Func → RegFacts} {T : Sums} {bf : Func → BFunc} {plan : Func → Plan}
  {dead : Func → DeadNames} {frame : Func → Reg}

/-- **C102, what holds.** A program with several threads, analysed and instrumented by the tool and executed
with the code emitted for its plans, is protected under the conditions of `C88_threads_partial` and
`C100_signals_partial`, if signals arrive in any thread at any time and the handlers are executed instruction
by instruction in any order with the other threads.  Missing: as in these two theorems. -/
theorem C102_signals_partial (hB : BinaryOk B fl jf co info R bf dead frame)
    (hb : Built fl skip co info R T bf plan) (hnr : ∀ f ∈ co.funcs, CallsCovered T f)
    (hcall : ∀ f ∈ co.funcs, NoCallAtCheck fl co (bf f)) (htail : ∀ f ∈ co.funcs, TailsOk co T f)
    (hleft : ∀ f ∈ co.funcs, LeftOk skip co T bf f)
    (hh : ∀ f ∈ co.funcs, HandlersOk co (bf f) f)
    (hc : ∀ f ∈ co.funcs, ∀ L, doLowering fl co f (some (T f)) = some (some L) → CleanupOnly co T f)
    {H : Func → List Ev → Func → Prop} (hH : HandlersAt fl T bf H)
    {own : W → Prop} (hown : ∀ v, own v → ¬ GuardLike v) (depth : Nat) (g : Nat → W) :
    CrewsProtected ((semOn Flow co plan info (inRegOf fl T) (staysOf bf)).handling H) frame
      (B.Snippet jf (fun f => (T f).jit (dead f)) co plan) own depth g :=
  ((built_sound_handlers hb hcall hnr htail hleft hh hc).handling (H := H) fun f t h k => by
    obtain ⟨k1, k2⟩ := hH f t h k
    exact ⟨k1, fun hw => ⟨(k2 hw).1,
      fun hst => (k2 hw).2 (by simpa using (show ¬ (bf f).noReturn = true from hst))⟩⟩).crews
    (fun _ _ _ _ _ _ ht h => snippets_fit hB hb hcall (And.left (b := ∃ _, _) ht) h) hown depth g

end
end Verif
