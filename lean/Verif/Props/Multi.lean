import Verif.Multi
import Verif.Threads
import Verif.Props.UnwindMachine

/-!
# C88: programs with several threads

Seen from one thread, the steps of the others are changes of memory which it does not rely on.
-/

namespace Verif

theorem setAt_same {α : Type} (T : Nat → α) (i : Nat) (x : α) : setAt T i x i = x := by simp [setAt]

theorem setAt_other {α : Type} (T : Nat → α) {i j : Nat} (x : α) (h : j ≠ i) : setAt T i x j = T j := by
  simp [setAt, h]

theorem SnipFoot.mono {g R sp : W} {n k : Nat} (hk : n ≤ k) (h16 : k ≤ 16) {x : W}
    (h : SnipFoot g R sp n x) : SnipFoot g R sp k x := by
  rcases h with h | h | h
  · exact .inl h
  · exact .inr (.inl h)
  · refine .inr (.inr (inRange_sub h ?_))
    have : sp - BitVec.ofNat 64 n - (sp - BitVec.ofNat 64 k) = BitVec.ofNat 64 (k - n) := by
      apply BitVec.eq_of_toNat_eq
      simp only [BitVec.toNat_sub, BitVec.toNat_ofNat]
      omega
    rw [this, BitVec.toNat_ofNat, Nat.mod_eq_of_lt (by omega)]
    omega

theorem Path.mono {F G : W → Prop} (h : ∀ x, F x → G x) {w k k' : Code} {s s' : State}
    (hp : Path F w k s k' s') : Path G w k s k' s' := by
  induction hp with
  | refl => exact .refl
  | step a b _ ih => exact .step (fun p hp x hx => h x (a p hp x hx)) b ih

theorem Within.mono {F G : W → Prop} (h : ∀ x, F x → G x) {w k : Code} {s : State}
    (hp : Within F w k s) : Within G w k s := by
  cases hp with
  | exits s' p => exact .exits s' (p.mono h)
  | traps k' s' p => exact .traps k' s' (p.mono h)

/-- Nothing changes outside of what is touched. -/
theorem Path.outside {F : W → Prop} {w k k' : Code} {s s' : State} (hp : Path F w k s k' s') :
    ∀ x, ¬ F x → s'.mem x = s.mem x := by
  induction hp with
  | refl => exact fun _ _ => rfl
  | @step i k s k1 s1 k2 s2 ht hg _ ih =>
    intro x hx
    obtain ⟨t, hg', _, ho⟩ := hg.agree (s := s) ⟨rfl, rfl, rfl, fun _ _ => rfl⟩ ht
    exact (ih x hx).trans (ho x hx)

/-- A snippet which fits touches the thread's region, the return address and at most 16 bytes below the
stack pointer. -/
theorem SnipFits.within {inReg : Prop} {reg : Reg} {c : Code} {s : State} {R g : W} {ev : Ev}
    {l : List W} (h : SnipFits inReg reg c s R ev) (hr : Recorded g l s) (ha : Apart g R 16 s)
    (hroom : HasRoom g s) : Within (SnipFoot g R (s.regs .rsp) 16) c c s := by
  rw [hr.hasRoom] at hroom
  cases h with
  | push h1 h2 h3 h4 =>
    subst h4
    exact (h2.within hr (ha.mono h3) hroom).mono fun _ => .mono h3 (Nat.le_refl _)
  | save h1 h2 h3 => subst h3; exact h2.within hr.gs
  | check h1 h2 h3 h4 =>
    subst h4
    exact (h2.within hr (ha.mono h3)).mono fun _ => .mono h3 (Nat.le_refl _)
  | compare h1 h2 h3 => subst h3; exact h2.within hr ha

section
variable {m : ProgSem} {writes : Func → Prop} {frame : Func → Reg}
  {snip : Func → Ev → Code → State → W → Prop} {g : Nat → W}

/-- The thread has got to `p`, and the return addresses of the activations which have disappeared on its way
before their checks are in `S`. -/
def Got (m : ProgSem) (frame : Func → Reg) (snip : Func → Ev → Code → State → W → Prop) (h : W)
    (S : W → Prop) (p : XProc) : Prop :=
  ∃ f pos st ps, Recorded h [] st ∧ Trail (threadStep m frame snip h) (.start f pos st) (p :: ps) ∧
    ∀ v, XLost m (p :: ps) v → S v

theorem Got.step {h : W} {S : W → Prop} {s s' : State} {acts acts' : List XAct}
    (hp : Got m frame snip h S (.run s acts)) (hs : threadStep m frame snip h (.run s acts) (.run s' acts'))
    (hq : ∀ up, acts = up ++ acts' → ∀ x ∈ up, m.stacked x.func x.done → S x.ra) :
    Got m frame snip h S (.run s' acts') := by
  obtain ⟨f, pos, st, ps, h1, h2, h3⟩ := hp
  refine ⟨f, pos, st, _, h1, h2.step hs, ?_⟩
  rintro v (⟨up, acts, s, s', e1, e2, x, hx, hk, rfl⟩ | hv)
  · cases e2
    injection e1 with _ e1
    exact hq up e1 x hx hk
  · exact h3 v hv

theorem Got.mono {h : W} {S S' : W → Prop} (hS : ∀ v, S v → S' v) {p : XProc} (hp : Got m frame snip h S p) :
    Got m frame snip h S' p := by
  obtain ⟨f, pos, st, ps, h1, h2, h3⟩ := hp
  exact ⟨f, pos, st, ps, h1, h2, fun v hv => hS v (h3 v hv)⟩

theorem nothing_above {up acts : List XAct} (h : acts = up ++ acts) : up = [] := by
  have := congrArg List.length h
  simp only [List.length_append] at this
  exact List.length_eq_zero_iff.1 (by omega)

/-- Changes of memory which spare the region and the stored return addresses. -/
theorem Got.move {h : W} {S : W → Prop} {s s' : State} {acts : List XAct}
    (hp : Got m frame snip h S (.run s acts)) (hn : acts ≠ []) (hr : s'.regs = s.regs) (hg : s'.gs = s.gs)
    (h1 : ∀ x, InRange x h regionSize → s'.mem x = s.mem x) (h2 : SameSlots acts s s') :
    Got m frame snip h S (.run s' acts) := by
  cases acts with
  | nil => exact absurd rfl hn
  | cons a as => 
    refine hp.step (.step (.work ⟨hg, h1, fun _ _ _ => by rw [hr]⟩ (.inr h2))) fun up e x hx => ?_
    cases nothing_above e
    cases hx

/-- What is true of a thread. -/
def WorkerInv (m : ProgSem) (frame : Func → Reg) (snip : Func → Ev → Code → State → W → Prop) (h : W)
    (S : W → Prop) (mem : Mem) : Worker → Prop
  | .own s acts => acts = [] ∨ Got m frame snip h S (.run (s.over mem) acts)
  | .busy w k ev s0 s a as => Got m frame snip h S (.run s0 (a :: as)) ∧
      m.trace a.func (a.done ++ [ev]) ∧ snip a.func ev w s0 a.at_ ∧ Clear h (a :: as) 16 s0 ∧
      HasRoom h s0 ∧ ∃ s1, Path (SnipFoot h a.at_ (s0.regs .rsp) 16) w w s0 k s1 ∧
        Within (SnipFoot h a.at_ (s0.regs .rsp) 16) w k s1 ∧
        AgreeOn (SnipFoot h a.at_ (s0.regs .rsp) 16) s1 (s.over mem) ∧
        ∀ x, ¬ SnipFoot h a.at_ (s0.regs .rsp) 16 x → (∃ b ∈ a :: as, InRange x b.at_ 8) →
          mem x = s0.mem x

theorem WorkerInv.mono {h : W} {S S' : W → Prop} (hS : ∀ v, S v → S' v) {mem : Mem} {w : Worker}
    (hw : WorkerInv m frame snip h S mem w) : WorkerInv m frame snip h S' mem w := by
  cases w with
  | own s acts => exact hw.imp id (Got.mono hS)
  | busy w k ev s0 s a as => exact ⟨hw.1.mono hS, hw.2⟩

/-- A thread does not notice changes of memory on which it does not rely. -/
theorem WorkerInv.unaware {h : W} {S : W → Prop} {mem mem' : Mem} {w : Worker} (hw : WorkerInv m frame snip h S mem w)
    (hm : ∀ x, Needs h w x → mem' x = mem x) : WorkerInv m frame snip h S mem' w := by
  cases w with
  | own s acts =>
    rcases hw with hw | hw
    · exact .inl hw
    · by_cases hn : acts = []
      · exact .inl hn
      · exact .inr (hw.move (s' := s.over mem') hn rfl rfl (fun x hx => hm x (.inl hx))
          fun b hb => read64_eq _ _ _ fun x hx => hm x (.inr ⟨b, hb, hx⟩))
  | busy w k ev s0 s a as =>
    obtain ⟨h1, h2, h3, h4, h5, s1, h6, h7, h8, h9⟩ := hw
    exact ⟨h1, h2, h3, h4, h5, s1, h6, h7, ⟨h8.regs, h8.flags, h8.gs,
      fun x hx => (hm x (.inl hx)).trans (h8.mem x hx)⟩,
      fun x hx hb => (hm x (.inr hb)).trans (h9 x hx hb)⟩

/-- One instruction of a snippet. -/
theorem WorkerInv.instr {h : W} {S : W → Prop} {mem : Mem} {w k k' : Code} {ev : Ev} {s0 s s' : State} {a : XAct}
    {as : List XAct} (hw : WorkerInv m frame snip h S mem (.busy w k ev s0 s a as))
    (hg : Go w k (s.over mem) k' s') :
    WorkerInv m frame snip h S s'.mem (.busy w k' ev s0 s' a as) ∧
      ∀ x, ¬ SnipFoot h a.at_ (s0.regs .rsp) 16 x → s'.mem x = mem x := by
  obtain ⟨h1, h2, h3, h4, h5, s1, h6, h7, h8, h9⟩ := hw
  obtain ⟨i, r, rfl⟩ := hg.cons
  have ht := h7.touches
  obtain ⟨s2, hg2, ha2, hm2⟩ := hg.agree h8 ht
  exact ⟨⟨h1, h2, h3, h4, h5, s2, h6.snoc ht hg2, h7.go hg2, ⟨ha2.regs, ha2.flags, ha2.gs, ha2.mem⟩,
    fun x hx hb => (hm2 x hx).trans (h9 x hx hb)⟩, fun x hx => hm2 x hx⟩

/-- A snippet which has come to its end. -/
theorem WorkerInv.ended {h : W} {S : W → Prop} {mem : Mem} {w : Code} {ev : Ev} {s0 s : State} {a : XAct}
    {as : List XAct} (hw : WorkerInv m frame snip h S mem (.busy w [] ev s0 s a as)) :
    ∃ s1, Exits w s0 s1 ∧ ∀ acts, acts ≠ [] → (∀ b ∈ acts, ∃ c ∈ a :: as, b.at_ = c.at_) →
      Got m frame snip h S (.run s1 acts) → Got m frame snip h S (.run (s.over mem) acts) := by
  obtain ⟨h1, h2, h3, h4, h5, s1, h6, h7, h8, h9⟩ := hw
  refine ⟨s1, h6.ends (ends_nil _ _), fun acts hn hb hgot => hgot.move hn h8.regs h8.gs
    (fun x hx => h8.mem x (.inl hx)) fun b hb' => read64_eq _ _ _ fun x hx => ?_⟩
  by_cases hF : SnipFoot h a.at_ (s0.regs .rsp) 16 x
  · exact h8.mem x hF
  · obtain ⟨c, hc, e⟩ := hb b hb'
    rw [e] at hx
    exact (h9 x hF ⟨c, hc, hx⟩).trans (h6.outside x hF).symm

/-- A snippet which executes the illegal instruction. -/
theorem WorkerInv.dies {h : W} {S : W → Prop} {mem : Mem} {w k : Code} {i : Instr} {ev : Ev} {s0 s s' : State}
    {a : XAct} {as : List XAct} (hw : WorkerInv m frame snip h S mem (.busy w (i :: k) ev s0 s a as))
    (hx : exec i (s.over mem) = .trap s') :
    threadStep m frame snip h (.run s0 (a :: as)) .killed := by
  obtain rfl := exec_trap hx
  obtain ⟨h1, h2, h3, h4, h5, s1, h6, h7, h8, h9⟩ := hw
  exact .step (.trap h2 h3 h4 h5 (traps_iff.2 ⟨s1, h6.ends (ends_trap rfl)⟩))

/-- A thread without activations does nothing. -/
theorem threadStep_nil {h : W} {s : State} {q : XProc} :
    ¬ threadStep m frame snip h (.run s []) q := by
  generalize e : XProc.run s [] = p
  intro hs
  cases hs with
  | step hs => subst e; cases hs
  | unwind => simp at e

variable (hs : Sound m writes)
  (hfit : ∀ f t ev c s R, m.trace f (t ++ [ev]) → snip f ev c s R →
    SnipFits (m.inReg f) (frame f) c s R ev)
include hs hfit

omit hs in
theorem threadStep_refines {h : W} {p q : XProc} (hst : threadStep m frame snip h p q) :
    Unwinding (XStep m frame h) h p q := by
  cases hst with
  | step h => exact .step (h.refines hfit)
  | unwind h1 h2 h3 => exact .unwind h1 h2 h3

theorem Got.recorded {h : W} {S : W → Prop} {s : State} {acts : List XAct}
    (hg : Got m frame snip h S (.run s acts)) : ∃ l, Recorded h l s := by
  obtain ⟨f, pos, st, ps, h1, h2, _⟩ := hg
  obtain ⟨l, hi⟩ := steps_inv hs (fun _ _ => threadStep_refines hfit) h1 h2 rfl
  exact ⟨l, hi.recorded⟩

omit hs hfit in
theorem TeamRun.trail {needs : W → Worker → W → Prop} {p : TeamProc} (h : TeamRun m frame snip needs g p) :
    ∃ mem ps, Trail (TeamStep m frame snip needs g) (.run mem fun _ => none) (p :: ps) := by
  induction h with
  | init mem => exact ⟨mem, [], .start⟩
  | step _ hst ih =>
    obtain ⟨mem, ps, h⟩ := ih
    exact ⟨mem, _, .step h hst⟩

/-- Every thread of a process makes steps of a single thread. -/
theorem Trail.project {mem0 : Mem} {qs : List TeamProc}
    (h : Trail (TeamStep m frame snip Needs g) (.run mem0 fun _ => none) qs) :
    match qs with
    | .run mem T :: ps => ∀ i w, T i = some w → WorkerInv m frame snip (g i) (TeamLost m (.run mem T :: ps) i) mem w
    | .stopped i q :: ps => ∃ s acts, Got m frame snip (g i) (TeamLost m ps i) (.run s acts) ∧
        threadStep m frame snip (g i) (.run s acts) q
    | [] => True := by
  induction h with
  | start => intro i w h; cases h
  | @step p q ps _ hst ih =>
    -- the thread which makes the step, and the others
    have each : ∀ {mem mem' : Mem} {T : Team} {i : Nat} {w' : Option Worker},
        (∀ i w, T i = some w → WorkerInv m frame snip (g i) (TeamLost m (.run mem T :: ps) i) mem w) →
        Others Needs g T i mem mem' →
        (∀ S : W → Prop, (∀ v, TeamLost m (.run mem T :: ps) i v → S v) →
          (∀ w0 w up, T i = some w0 → w' = some w → w0.acts = up ++ w.acts →
            ∀ x ∈ up, m.stacked x.func x.done → S x.ra) →
          ∀ w, w' = some w → WorkerInv m frame snip (g i) S mem' w) →
        ∀ j w, setAt T i w' j = some w →
          WorkerInv m frame snip (g j) (TeamLost m (.run mem' (setAt T i w') :: .run mem T :: ps) j) mem' w := by
      intro mem mem' T i w' ih ho hi j w hj
      have old : ∀ j v, TeamLost m (.run mem T :: ps) j v →
          TeamLost m (.run mem' (setAt T i w') :: .run mem T :: ps) j v :=
        fun j v => .inr
      by_cases e : j = i
      · subst e
        refine hi _ (old j) (fun w0 w up e0 e eu x hx hk =>
          .inl ⟨mem, mem', T, _, w0, w, up, rfl, rfl, e0, ?_, eu, x, hx, hk, rfl⟩) w (by rwa [setAt_same] at hj)
        rw [setAt_same, e]
      · rw [setAt_other _ _ e] at hj
        exact ((ih j w hj).unaware (ho j w e hj)).mono (old j)
    cases hst with
    | @own mem T i s s' acts acts' hi hst ho =>
      refine each ih ho fun S hS hn w e => ?_
      cases e
      rcases ih i _ hi with rfl | hg
      · exact absurd hst threadStep_nil
      · exact .inr ((hg.mono hS).step hst fun up e => hn _ _ up hi rfl e)
    | @stop mem T i s acts q hi hst _ =>
      rcases ih i _ hi with rfl | hg
      · exact absurd hst threadStep_nil
      · exact ⟨_, _, hg, hst⟩
    | @begin mem T i s a as ev code hi h1 h2 h3 h4 =>
      refine each ih (fun _ _ _ _ _ _ => rfl) fun S hS _ w e => ?_
      cases e
      have hg : Got m frame snip (g i) S (.run (s.over mem) (a :: as)) :=
        ((ih i _ hi).resolve_left (by simp)).mono hS
      obtain ⟨l, hl⟩ := hg.recorded hs hfit
      exact ⟨hg, h1, h2, h3, h4, s.over mem, .refl,
        (hfit _ _ _ _ _ _ h1 h2).within hl (h3 a (by simp)) h4, ⟨rfl, rfl, rfl, fun _ _ => rfl⟩,
        fun _ _ _ => rfl⟩
    | instr hi hgo ho =>
      refine each ih ho fun S hS _ w e => ?_
      cases e
      exact (((ih _ _ hi).instr hgo).1).mono hS
    | @finish mem T i w ev s0 s a as hi hc =>
      refine each ih (fun _ _ _ _ _ _ => rfl) fun S hS hn w e => ?_
      cases e
      have hw : WorkerInv m frame snip (g i) S mem _ := (ih i _ hi).mono hS
      obtain ⟨s1, hx, hmove⟩ := hw.ended
      obtain ⟨h1, h2, h3, h4, h5, _⟩ := hw
      refine .inr (hmove _ (by simp) (fun b hb => ?_) (h1.step (.step (.snippet h2 h3 h4 h5 hx hc))
        fun up e => hn _ _ up hi rfl e))
      rcases List.mem_cons.mp hb with rfl | hb
      · exact ⟨a, by simp, rfl⟩
      · exact ⟨b, by simp [hb], rfl⟩
    | @accept mem T i w s0 s a as hi hne =>
      have hw := ih i _ hi
      obtain ⟨s1, hx, _⟩ := hw.ended
      obtain ⟨h1, h2, h3, h4, h5, _⟩ := hw
      exact ⟨_, _, h1, .step (.accept h2 h3 h4 hx hne)⟩
    | trap hi hx =>
      have hw := ih _ _ hi
      exact ⟨_, _, hw.1, hw.dies hx⟩
    | @spawn mem T i s f p hi hr ho =>
      refine each ih ho fun S hS hn w e => ?_
      cases e
      exact .inr ⟨f, p, s, [], hr, .start, nofun⟩
    | exit hi => exact each ih (fun _ _ _ _ _ _ => rfl) nofun

/-- **C88, the footprint.** An instruction of a snippet changes only the thread's own shadow region, the
return address of its innermost activation and 16 bytes below its stack pointer; so if no other thread
relies on these, it spares them. -/
theorem C88_footprint {mem : Mem} {T : Team} {i : Nat} {w k k' : Code} {ev : Ev} {s0 s s' : State}
    {a : XAct} {as : List XAct} (hrun : TeamRun m frame snip Needs g (.run mem T))
    (hi : T i = some (.busy w k ev s0 s a as)) (hg : Go w k (s.over mem) k' s')
    (hd : ∀ j w, j ≠ i → T j = some w → ∀ x, Needs (g j) w x →
      ¬ SnipFoot (g i) a.at_ (s0.regs .rsp) 16 x) : Others Needs g T i mem s'.mem := by
  intro j w' hj hw x hx
  obtain ⟨_, ps, hrun⟩ := hrun.trail
  exact ((hrun.project hs hfit i _ hi).instr hg).2 x (hd j w' hj hw x hx)

/-- The conditions suffice for programs with several threads. -/
theorem Sound.team (g : Nat → W) : TeamProtected m frame snip Needs g where
  recorded mem T i s a as h hi hd := by
    obtain ⟨_, ps, h⟩ := h.trail
    obtain ⟨f, pos, st, qs, h1, h2, _⟩ := (h.project hs hfit i _ hi).resolve_left (by simp)
    exact (hs.unwinding (fun _ _ => threadStep_refines hfit) f).recorded _ _ _ _ _ h1 h2.steps hd
  unchecked i v h := by
    obtain ⟨_, ps, h⟩ := h.trail
    obtain ⟨s, acts, ⟨f, pos, st, qs, h1, h2, _⟩, h3⟩ := h.project hs hfit
    exact (hs.unwinding (fun _ _ => threadStep_refines hfit) f).unchecked _ _ v h1 (h2.steps.step h3)
  accepted mem0 mem T i ps v h hst := by
    have key : ∀ {s acts}, Got m frame snip (g i) (TeamLost m (.run mem T :: ps) i) (.run s acts) →
        threadStep m frame snip (g i) (.run s acts) (.diverted v) →
        v = 0 ∨ (∃ x ∈ acts, m.stacked x.func x.done ∧ v = x.ra) ∨ TeamLost m (.run mem T :: ps) i v := by
      rintro s acts ⟨f, pos, st, qs, h1, h2, hS⟩ h3
      exact ((hs.unwinding (fun _ _ => threadStep_refines hfit) f).accepted _ _ _ _ _ _ h1 h2 h3).imp id
        (Or.imp_right (hS v))
    cases hst with
    | stop hi h3 _ =>
      rcases h.project hs hfit i _ hi with rfl | hp
      · exact absurd h3 threadStep_nil
      · exact (key hp h3).imp id (Or.imp_left fun k => ⟨_, hi, k⟩)
    | accept hi hne =>
      have hp := h.project hs hfit i _ hi
      obtain ⟨s1, hx, _⟩ := hp.ended
      obtain ⟨h1, h2, h3, h4, h5, _⟩ := hp
      exact (key h1 (.step (.accept h2 h3 h4 hx hne))).imp id (Or.imp_left fun k => ⟨_, hi, k⟩)
  quiet mem T i w a as l h hi ha he hl hgl hst := by
    obtain ⟨_, ps, h⟩ := h.trail
    have key : ∀ {s}, Got m frame snip (g i) (TeamLost m (.run mem T :: ps) i) (.run s (a :: as)) → s.mem.read64 a.at_ = a.ra →
        Recorded (g i) l s → ¬ threadStep m frame snip (g i) (.run s (a :: as)) .killed := by
      rintro s ⟨f, pos, st, qs, h1, h2, _⟩ h3 h4 h5
      exact (hs.unwinding (fun _ _ => threadStep_refines hfit) f).quiet _ _ _ _ _ _ h1 h2.steps h3 h4 hgl h5
    have hp := h.project hs hfit i w hi
    cases hst with
    | @stop _ _ _ s acts _ hi' h3 _ =>
      rw [hi] at hi'
      cases hi'
      cases (show acts = a :: as from ha)
      exact key (hp.resolve_left (by simp)) he hl h3
    | @trap _ _ _ _ _ _ _ s0 _ _ a' as' hi' hx =>
      rw [hi] at hi'
      cases hi'
      cases (show a' :: as' = a :: as from ha)
      exact key hp.1 he hl (hp.dies hx)

end

section
variable {B : Binary} {fl : InstrFlags} {skip : List Nat} {jf : JitFlags} {co : CodeObj} {info : StackInfo}
  {R : Func → RegFacts} {T : Sums} {bf : Func → BFunc} {plan : Func → Plan}
  {dead : Func → DeadNames} {frame : Func → Reg}

/-- **C88, what holds.** A program with several threads, analysed and instrumented by the tool and
executed with the code emitted for its plans, is protected under the conditions of
`C87_planned_partial`, whatever the order in which the threads execute their instructions, within
snippets also, provided that no thread writes to the shadow region or the stored return addresses of
another one.  Missing: as in `C87_planned_partial`, and writing to the stored return addresses of other
threads; what is missing is false (`C88_refuted_cross`). -/
theorem C88_threads_partial (hB : BinaryOk B fl jf co info R bf dead frame)
    (hb : Built fl skip co info R T bf plan) (hnr : ∀ f ∈ co.funcs, CallsCovered T f)
    (hcall : ∀ f ∈ co.funcs, NoCallAtCheck fl co (bf f)) (htail : ∀ f ∈ co.funcs, TailsOk co T f)
    (hleft : ∀ f ∈ co.funcs, LeftOk skip co T bf f)
    (hh : ∀ f ∈ co.funcs, HandlersOk co (bf f) f)
    (hc : ∀ f ∈ co.funcs, ∀ L, doLowering fl co f (some (T f)) = some (some L) → CleanupOnly co T f)
    (g : Nat → W) :
    TeamProtected (semOn Flow co plan info (inRegOf fl T) (staysOf bf)) frame
      (B.Snippet jf (fun f => (T f).jit (dead f)) co plan) Needs g :=
  (built_sound_handlers hb hcall hnr htail hleft hh hc).team (fun _ _ _ _ _ _ ht h =>
      snippets_fit hB hb hcall (And.left (b := ∃ _, _) ht) h) g

end
end Verif
