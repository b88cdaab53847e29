import Verif.Props.SnipWrites
import Verif.Props.WeakMemory

/-! # C102: what the instructions of snippets write, in programs with threads and signal handlers -/

namespace Verif

theorem Orderly.mono {p q : Prop} (hq : p → q) {n : Nat} {k : Code} (h : Orderly p n k) : Orderly q n k := by
  induction h with
  | mild h => exact .mild h
  | push r h _ ih => exact .push r h ih
  | cmp r b d _ ih => exact .cmp r b d ih
  | je l _ ih => exact .je l ih
  | save q r d h1 h2 => exact .save q r d (hq h1) h2

theorem WritesAt.gs {p : Prop} {g sp : W} {k : Code} {t : State} (h : WritesAt p g sp k t) : t.gs = g := by
  cases h <;> assumption

/-- Over labels. -/
theorem WritesAt.skips {p : Prop} {g sp : W} {k k' : Code} {t : State} (hk : Skips k k') (h : WritesAt p g sp k t) :
    WritesAt p g sp k' t := by
  induction hk with
  | refl => exact h
  | @bind l k k' _ ih =>
    refine ih ?_
    cases h with
    | mild h1 h2 => exact .mild h1 fun i hi => h2 i (List.mem_cons_of_mem _ hi)
    | code h1 h2 _ =>
      cases h2 with
      | mild h2 => exact .mild h1 fun i hi => h2 i (List.mem_cons_of_mem _ hi)

/-! ## The base of gs -/

section
variable {sig : Sigs} {own : W → Prop} {g : W}

theorem interrupted_gs {sigc : Code → State → State → Prop} {fits : Code → State → Prop}
    (H : ∀ {k a b}, sigc k a b → b.gs = a.gs) {w k k' : Code} {s t : State} (h : Interrupted sigc fits w k s k' t) :
    t.gs = s.gs := by
  induction h with
  | refl => rfl
  | instr _ _ hg ih =>
    refine Eq.trans ?_ ih
    cases hg with
    | next e => exact exec_gs e
    | goto e _ => rw [exec_goto_mem e]
  | signal _ hs ih => exact (H hs).trans ih

/-- The base of gs of a configuration. -/
def Conf.baseIs (g : W) : Conf → Prop
  | .run s _ _ => s.gs = g
  | .killed => True

theorem sigStep_gs (H : ∀ {K a b}, sig.back K a b → b.gs = a.gs) (H' : ∀ {a b}, sig.away a b → b.gs = a.gs) {c c' : Conf}
    (h : SigStep sig BeforePointer own g c c') {b : W} (hc : c.baseIs b) : c'.baseIs b := by
  cases h with
  | work h1 _ _ => exact h1.trans hc
  | signal h1 => exact (H h1).trans hc
  | call _ _ _ hr => exact (interrupted_gs (fun h => H h.1) hr).trans hc
  | ret _ _ _ hr => exact (interrupted_gs (fun h => H h.1) hr).trans hc
  | enter _ _ hr => exact (interrupted_gs (fun h => H h.1) hr).trans hc
  | leave _ _ hr => exact (interrupted_gs (fun h => H h.1) hr).trans hc
  | callTrap => trivial
  | retTrap => trivial
  | enterTrap => trivial
  | leaveTrap => trivial
  | unwind => exact hc
  | jump _ h1 => exact (H' h1).trans hc
  | callJump _ _ _ _ hr h1 => exact (H' h1).trans ((interrupted_gs (fun h => H h.1) hr).trans hc)
  | retJump _ _ _ _ hr h1 => exact (H' h1).trans ((interrupted_gs (fun h => H h.1) hr).trans hc)
  | enterJump _ _ _ hr h1 => exact (H' h1).trans ((interrupted_gs (fun h => H h.1) hr).trans hc)
  | leaveJump _ _ _ hr h1 => exact (H' h1).trans ((interrupted_gs (fun h => H h.1) hr).trans hc)

theorem sigRun_gs (H : ∀ {K a b}, sig.back K a b → b.gs = a.gs) (H' : ∀ {a b}, sig.away a b → b.gs = a.gs) {c c' : Conf}
    (h : SigRun sig BeforePointer own g c c') {b : W} (hc : c.baseIs b) : c'.baseIs b := by
  induction h with
  | refl => exact hc
  | step _ hs ih => exact sigStep_gs H H' hs ih

theorem among_gs (own : W → Prop) (g : W) : ∀ n, (∀ {K a b}, (Among own g n).back K a b → b.regs = a.regs ∧ b.gs = a.gs) ∧
    ∀ {a b}, (Among own g n).away a b → b.gs = a.gs
  | 0 => ⟨fun h => ⟨h.regs, h.gs⟩, fun h => h.elim⟩
  | n + 1 => by
    refine ⟨?_, ?_⟩
    · rintro K a b (⟨_, _, _, _, h⟩ | h)
      · exact ⟨h.regs, h.gs⟩
      · exact ⟨h.regs, h.gs⟩
    · rintro a b ⟨s1, s2, q, leaf, h1, h2, h3⟩
      have H := among_gs own g n
      exact h3.gs.trans (sigRun_gs (fun h => (H.1 h).2) H.2 h2 h1.gs)

end

/-! ## Snippets in execution -/

/-- A snippet which has been interrupted at any of its instructions is where its code has got to. -/
def Writing (w : Code) (g sp : W) (k : Code) (t : State) : Prop :=
  (∃ p, WritesAt p g sp k t) ∧ ∀ l k, target l w = some k → ∀ i ∈ k, Mild i

theorem Writing.keeps {w k k' : Code} {g sp : W} {t t' : State} (h : Writing w g sp k t) (hg : Go w k t k' t') (x : W)
    (h1 : ¬ InRange x g regionSize) (h2 : ¬ InRange x (sp - BitVec.ofNat 64 16) 16) : t'.mem x = t.mem x :=
  have ⟨⟨_, h⟩, _⟩ := h
  h.keeps hg x h1 h2

theorem Writing.skips {w k k' : Code} {g sp : W} {t : State} (h : Writing w g sp k t) (hk : Skips k k') :
    Writing w g sp k' t :=
  have ⟨⟨p, h1⟩, h2⟩ := h
  ⟨⟨p, h1.skips hk⟩, h2⟩

theorem SnipFits.writing {inReg : Prop} {reg : Reg} {c : Code} {s : State} {R : W} {ev : Ev}
    (h : SnipFits inReg reg c s R ev) {g : W} (hg : s.gs = g) {sigc : Code → State → State → Prop}
    (H : ∀ {k a b}, sigc k a b → b.regs = a.regs ∧ b.gs = a.gs) {k : Code} {t : State}
    (hr : Interrupted sigc (fun k t => ev = .push → RoomFor g k t) c c s k t) : Writing c g (s.regs .rsp) k t := by
  have start : ∀ {p n}, n = 0 → Orderly p n c → WritesAt p g (s.regs .rsp) c s := fun hn h =>
    .code hg h (by simp [hn])
  cases h with
  | push _ hc _ _ =>
    obtain ⟨h1, h2⟩ := hc.orderly
    exact ⟨⟨_, (start rfl h1).run H (fun _ _ _ h => h rfl) h2 hr⟩, h2⟩
  | save _ hc _ =>
    obtain ⟨h1, h2⟩ := hc.orderly
    exact ⟨⟨_, (start rfl h1).run H (fun h => h.elim) h2 hr⟩, h2⟩
  | check _ hc _ _ =>
    obtain ⟨h1, h2⟩ := hc.orderly
    exact ⟨⟨_, (start rfl h1).run H (fun h => h.elim) h2 hr⟩, h2⟩
  | compare _ hc _ =>
    obtain ⟨h1, h2⟩ := hc.orderly
    exact ⟨⟨_, (start rfl h1).run H (fun h => h.elim) h2 hr⟩, h2⟩

theorem Job.Ok.writing {own : W → Prop} {g : W} {sig : Sigs} {j : Job} (h : j.Ok own g) (hg : j.start.gs = g)
    (H : ∀ {K a b}, sig.back K a b → b.regs = a.regs ∧ b.gs = a.gs) {k : Code} {t : State} (hr : j.To sig g k t) :
    Writing j.code g (j.start.regs .rsp) k t := by
  have start : ∀ {p n}, n = 0 → Orderly p n j.code → WritesAt p g (j.start.regs .rsp) j.code j.start := fun hn h =>
    .code hg h (by simp [hn])
  cases h with
  | call hc =>
    obtain ⟨h1, h2⟩ := hc.orderly
    exact ⟨⟨_, (start rfl h1).run (fun h => H h.1) (fun _ _ _ h => h) h2 hr⟩, h2⟩
  | ret hc =>
    obtain ⟨h1, h2⟩ := hc.orderly
    exact ⟨⟨_, (start rfl h1).run (fun h => H h.1) (fun h => h.elim) h2 hr⟩, h2⟩
  | enter hc =>
    obtain ⟨h1, h2⟩ := hc.orderly
    exact ⟨⟨_, (start rfl h1).run (fun h => H h.1) (fun h => h.elim) h2 hr⟩, h2⟩
  | leave hc =>
    obtain ⟨h1, h2⟩ := hc.orderly
    exact ⟨⟨_, (start rfl h1).run (fun h => H h.1) (fun h => h.elim) h2 hr⟩, h2⟩

section
variable {m : ProgSem} {writes : Func → Prop} {frame : Func → Reg} {snip : Func → Ev → Code → State → W → Prop}
  {own : W → Prop} {depth : Nat} {g : W} {S : W → Prop} (hs : Sound m writes)
  (hfit : ∀ f t ev c s R, m.trace f (t ++ [ev]) → snip f ev c s R → SnipFits (m.inReg f) (frame f) c s R ev)
  (hO : ∀ v, own v → ¬ GuardLike v)
include hs hfit hO

/-- The snippet of a program. -/
theorem CrewAt.writing {w k : Code} {ev : Ev} {s0 s : State} {a : XAct} {as : List XAct} {mem : Mem}
    (h : CrewAt m frame snip own depth g S (.busy w k ev s0 s a as) [] mem) :
    Writing w g (s0.regs .rsp) k (s.over mem) := by
  obtain ⟨k1, k2, k3, k4, k5⟩ := h
  obtain ⟨_, l, hi⟩ := k1.inv hs hfit hO
  exact (hfit _ _ _ _ _ _ k2 k3).writing hi.recorded.gs (fun h => (among_gs own g depth).1 h.1) k5

theorem CrewAt.gs {w : Worker} (hn : w.acts ≠ []) : ∀ {hs' : List Handler} {mem : Mem},
    CrewAt m frame snip own depth g S w hs' mem → (Crew.state ⟨w, hs'⟩).gs = g
  | [], mem, h => by
    cases w with
    | own s acts =>
      obtain ⟨_, l, hi⟩ := ((show _ ∨ _ from h).resolve_left hn).inv hs hfit hO
      exact hi.recorded.gs
    | busy w k ev s0 s a as => exact ((h.writing hs hfit hO).1.choose_spec).gs
  | h' :: hs', mem, ⟨m0, s1, h1, h2, h3, h4, h5, h6⟩ => by
    have hg := CrewAt.gs hn h1
    have e1 : s1.gs = g := h4.gs.trans hg
    have H := among_gs own g (depth - hs'.length - 1)
    cases h' with
    | idle s p leaf => exact sigRun_gs (fun h => (H.1 h).2) H.2 h5 (b := g) e1
    | busy j k s =>
      obtain ⟨k1, k2, k3⟩ := h5
      exact (k2.writing (sigRun_gs (fun h => (H.1 h).2) H.2 k1 (b := g) e1) H.1 k3).1.choose_spec.gs

/-- The snippet of a handler. -/
theorem CrewAt.writingH {w : Worker} {hs' : List Handler} {j : Job} {k : Code} {s : State} {mem : Mem}
    (h : CrewAt m frame snip own depth g S w (.busy j k s :: hs') mem) :
    Writing j.code g (j.start.regs .rsp) k (s.over mem) := by
  obtain ⟨m0, s1, h1, h2, h3, h4, ⟨k1, k2, k3⟩, h6⟩ := h
  have e1 : s1.gs = g := h4.gs.trans (h1.gs hs hfit hO h2)
  have H := among_gs own g (depth - hs'.length - 1)
  exact k2.writing (sigRun_gs (fun h => (H.1 h).2) H.2 k1 (b := g) e1) H.1 k3

end

/-! ## Processes -/

section
variable {m : ProgSem} {writes : Func → Prop} {frame : Func → Reg} {snip : Func → Ev → Code → State → W → Prop}
  {own : W → Prop} {depth : Nat} {g : Nat → W} (hs : Sound m writes)
  (hfit : ∀ f t ev c s R, m.trace f (t ++ [ev]) → snip f ev c s R → SnipFits (m.inReg f) (frame f) c s R ev)
  (hO : ∀ v, own v → ¬ GuardLike v)
include hs hfit hO

/-- **C102, the footprint.** Whatever signals and other threads have done, an instruction of a snippet changes only the
thread's own shadow region and 16 bytes below the stack pointer with which the snippet began. -/
theorem C102_footprint {mem0 mem : Mem} {T : Nat → Option Crew} {ps : List CrewsProc}
    (h : Trail (CrewsStep m frame snip own depth g) (.run mem0 fun _ => none) (.run mem T :: ps)) {i : Nat}
    {w k k' : Code} {ev : Ev} {s0 s s' : State} {a : XAct} {as : List XAct}
    (hi : T i = some ⟨.busy w k ev s0 s a as, []⟩) (hgo : Go w k (s.over mem) k' s') (x : W)
    (h1 : ¬ InRange x (g i) regionSize) (h2 : ¬ InRange x (s0.regs .rsp - BitVec.ofNat 64 16) 16) :
    s'.mem x = mem x :=
  ((h.crews i _ hi).writing hs hfit hO).keeps hgo x h1 h2

/-- **C102, the footprint of handlers.** -/
theorem C102_footprint_handler {mem0 mem : Mem} {T : Nat → Option Crew} {ps : List CrewsProc}
    (h : Trail (CrewsStep m frame snip own depth g) (.run mem0 fun _ => none) (.run mem T :: ps)) {i : Nat}
    {w : Worker} {hs' : List Handler} {j : Job} {k k' : Code} {s s' : State}
    (hi : T i = some ⟨w, .busy j k s :: hs'⟩) (hgo : Go j.code k (s.over mem) k' s') (x : W)
    (h1 : ¬ InRange x (g i) regionSize) (h2 : ¬ InRange x (j.start.regs .rsp - BitVec.ofNat 64 16) 16) :
    s'.mem x = mem x :=
  ((h.crews i _ hi).writingH hs hfit hO).keeps hgo x h1 h2

/-! ## Bytes -/

/-- The thread is executing the `n` bytes of a snippet at `b`, which began with the stack pointer `sp`; `rip` is `x`. -/
inductive Gang.Executing : Gang → W → Nat → W → W → State → Prop
  | prog {b : W} {n : Nat} {x : W} {ev : Ev} {s0 s : State} {a : XAct} {as : List XAct} :
      Gang.Executing ⟨.busy b n x ev s0 s a as, []⟩ b n x (s0.regs .rsp) s
  | hand {w : Task} {hs : List Hand} {j : Job} {b : W} {n : Nat} {x : W} {s : State} :
      Gang.Executing ⟨w, .busy j b n x s :: hs⟩ b n x (j.start.regs .rsp) s

theorem GangAt.keeps {avx : Bool} {text : W → Byte} {h : W} {S : W → Prop} {c : Gang} {mem : Mem}
    (hc : GangAt m frame snip avx text own depth h S c mem) {b x x' sp : W} {n : Nat} {s s' : State}
    (he : c.Executing b n x sp s) (hx : Inside b n x) (hgo : executeAt avx text x (s.over mem) = .next x' s') (y : W)
    (h1 : ¬ InRange y h regionSize) (h2 : ¬ InRange y (sp - BitVec.ofNat 64 16) 16) : s'.mem y = mem y := by
  obtain ⟨⟨w, hs'⟩, ⟨k1, k2⟩, k3⟩ := hc
  have key : ∀ {w k : Code} {t : State}, SameCpu s t → RipAt avx text b n x w k → Writing w h sp k (t.over mem) →
      s'.mem y = mem y := by
    intro w k t hc hk hw
    rw [← hc mem] at hw
    obtain ⟨hn, ⟨rfl, _⟩ | ⟨_, i, k1, h5, ⟨rfl, h6⟩ | ⟨x1, s1, k', h6, h7, _⟩⟩⟩ := hk.back (s.over mem)
    · exact absurd hx (inside_end hn)
    · rw [h6] at hgo; cases hgo
    · rw [h7] at hgo; cases hgo
      exact (hw.skips h5).keeps h6 y h1 h2
  cases he with
  | prog =>
    cases k1 with
    | busy hc hk =>
      cases k2 with
      | nil => exact key hc hk (k3.writing hs hfit hO)
  | hand =>
    cases k2 with
    | cons k2 _ =>
      cases k2 with
      | busy _ hc hk => exact key hc hk (k3.writingH hs hfit hO)

/-- **C120, the footprint.** Whatever signals and other threads have done, an instruction of the bytes of a snippet, of
the program or of a handler, changes only the thread's own shadow region and 16 bytes below the stack pointer with
which the snippet began. -/
theorem C120_footprint {avx : Bool} {text : W → Byte} (hu : GangsUndefined snip own g avx text) {mem0 mem : Mem}
    {T : Nat → Option Gang} {ps : List GangsProc}
    (h : Trail (GangsStep m frame snip avx text own depth g) (.run mem0 fun _ => none) (.run mem T :: ps)) {i n : Nat}
    {c : Gang} {b x x' sp : W} {s s' : State} (hi : T i = some c) (he : c.Executing b n x sp s) (hx : Inside b n x)
    (hgo : executeAt avx text x (s.over mem) = .next x' s') (y : W) (h1 : ¬ InRange y (g i) regionSize)
    (h2 : ¬ InRange y (sp - BitVec.ofNat 64 16) 16) : s'.mem y = mem y := by
  rcases gangs_trail hu h with ⟨_, _, U, qs, e, hr, ht, _⟩ | ⟨_, _, _, e, _⟩
  · cases e
    obtain ⟨d, hd, k1⟩ := hr.get hi
    exact GangAt.keeps hs hfit hO ⟨d, k1, ht.crews i d hd⟩ he hx hgo y h1 h2
  · cases e

/-- So it disturbs no other thread unless one of them relies on these bytes. -/
theorem C120_spares {avx : Bool} {text : W → Byte} (hu : GangsUndefined snip own g avx text) {mem0 mem : Mem}
    {T : Nat → Option Gang} {ps : List GangsProc}
    (h : Trail (GangsStep m frame snip avx text own depth g) (.run mem0 fun _ => none) (.run mem T :: ps)) {i n : Nat}
    {c : Gang} {b x x' sp : W} {s s' : State} (hi : T i = some c) (he : c.Executing b n x sp s) (hx : Inside b n x)
    (hgo : executeAt avx text x (s.over mem) = .next x' s')
    (hd : ∀ j d, j ≠ i → T j = some d → ∀ y, InRange y (g j) regionSize ∨ d.keeps y →
      ¬ InRange y (g i) regionSize ∧ ¬ InRange y (sp - BitVec.ofNat 64 16) 16) :
    Gang.Others g T i mem s'.mem := fun j d hj hw y hy =>
  C120_footprint hs hfit hO hu h hi he hx hgo y (hd j d hj hw y hy).1 (hd j d hj hw y hy).2

/-- **C121, the footprint.** Likewise whatever lies between threads and memory. -/
theorem C121_footprint {avx : Bool} {text : W → Byte} {M : Caches} (hu : GangsUndefined snip own g avx text)
    {a0 a : M.Config} {T : Nat → Option Gang} {ps : List (WeakProc M)}
    (h : Trail (WeakStep m frame snip avx text M own depth g) (.run a0 fun _ => none) (.run a T :: ps)) {i n : Nat}
    {c : Gang} {b x x' sp : W} {s s' : State} (hi : T i = some c) (he : c.Executing b n x sp s) (hx : Inside b n x)
    (hgo : executeAt avx text x (s.over (M.sees a i)) = .next x' s') (y : W) (h1 : ¬ InRange y (g i) regionSize)
    (h2 : ¬ InRange y (sp - BitVec.ofNat 64 16) 16) : s'.mem y = M.sees a i y :=
  (h.weak hu i c hi).keeps hs hfit hO he hx hgo y h1 h2

end

end Verif
