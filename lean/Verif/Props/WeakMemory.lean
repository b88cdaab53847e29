import Verif.WeakMemory
import Verif.Props.ByteCrews
import Verif.Props.SignalTeam

/-! # C121: the inserted bytes protect programs on processors with several cores -/

namespace Verif

variable {m : ProgSem} {frame : Func → Reg} {snip : Func → Ev → Code → State → W → Prop} {avx : Bool}
  {text : W → Byte} {M : Caches} {own : W → Prop} {depth : Nat} {g : Nat → W}

/-! ## One thread -/

theorem CrewAt.silent {h : W} {S : W → Prop} {mem : Mem} {d d' : Crew}
    (hk : Silent m frame snip own depth h mem d d') (hc : CrewAt m frame snip own depth h S d.prog d.hands mem) :
    CrewAt m frame snip own depth h S d'.prog d'.hands mem := by
  induction hk with
  | refl => exact hc
  | step hs ha _ ih =>
    refine ih (hc.step hs (fun up e x hx => ?_) fun a up e => ?_)
    · have := congrArg List.length e
      rw [ha, List.length_append] at this
      cases List.length_eq_zero_iff.1 (show up.length = 0 by omega)
      cases hx
    · have := congrArg List.length e
      rw [ha] at this
      simp at this
      omega

theorem Silent.acts {h : W} {mem : Mem} {d d' : Crew} (hk : Silent m frame snip own depth h mem d d') :
    d'.prog.acts = d.prog.acts := by
  induction hk with
  | refl => rfl
  | step _ ha _ ih => exact ih.trans ha

/-- A thread which executes bytes has got there with lists of instructions. -/
def GangAt (m : ProgSem) (frame : Func → Reg) (snip : Func → Ev → Code → State → W → Prop) (avx : Bool)
    (text : W → Byte) (own : W → Prop) (depth : Nat) (h : W) (S : W → Prop) (c : Gang) (mem : Mem) : Prop :=
  ∃ d, CrewRel own avx text h c d ∧ CrewAt m frame snip own depth h S d.prog d.hands mem

theorem GangAt.mono {h : W} {S S' : W → Prop} (hS : ∀ v, S v → S' v) {c : Gang} {mem : Mem}
    (hc : GangAt m frame snip avx text own depth h S c mem) : GangAt m frame snip avx text own depth h S' c mem := by
  obtain ⟨d, h1, h2⟩ := hc
  exact ⟨d, h1, h2.mono hS⟩

theorem GangAt.unaware {h : W} {S : W → Prop} {c : Gang} {mem mem' : Mem}
    (hc : GangAt m frame snip avx text own depth h S c mem)
    (hm : ∀ x, InRange x h regionSize ∨ c.keeps x → mem' x = mem x) :
    GangAt m frame snip avx text own depth h S c mem' := by
  obtain ⟨d, h1, h2⟩ := hc
  exact ⟨d, h1, h2.unaware fun x hx => hm x (hx.imp id h1.keeps)⟩

/-- Every thread of a process makes steps of a single thread. -/
theorem Trail.weak (hu : GangsUndefined snip own g avx text) {a0 : M.Config} {qs : List (WeakProc M)}
    (h : Trail (WeakStep m frame snip avx text M own depth g) (.run a0 fun _ => none) qs) :
    match qs with
    | .run a T :: ps => ∀ i c, T i = some c → GangAt m frame snip avx text own depth (g i)
        (fun v => WeakLost m (.run a T :: ps) i v ∨ WeakCut m (.run a T :: ps) i v) c (M.sees a i)
    | .stopped i q :: ps => ∃ a T c, ps.head? = some (.run a T) ∧ T i = some c ∧
        GangStop m frame avx text (g i) (M.sees a i) c q ∧ GangAt m frame snip avx text own depth (g i)
        (fun v => WeakLost m ps i v ∨ WeakCut m ps i v) c (M.sees a i)
    | .strayed _ :: _ => False
    | [] => True := by
  induction h with
  | start => intro i w h; cases h
  | @step p q ps _ hst ih =>
    -- the thread which makes the step, and the others
    have each : ∀ {a b : M.Config} {T : Nat → Option Gang} {i : Nat} {c' : Option Gang},
        (∀ i c, T i = some c → GangAt m frame snip avx text own depth (g i)
          (fun v => WeakLost m (.run a T :: ps) i v ∨ WeakCut m (.run a T :: ps) i v) c (M.sees a i)) →
        M.Spares g T i a b →
        (∀ S : W → Prop,
          (∀ v, WeakLost m (.run a T :: ps) i v ∨ WeakCut m (.run a T :: ps) i v → S v) →
          (∀ c0 c up, T i = some c0 → c' = some c → c0.prog.acts = up ++ c.prog.acts →
            ∀ x ∈ up, m.stacked x.func x.done → S x.ra) →
          (∀ c0 c u up, T i = some c0 → c' = some c → c0.prog.acts = u :: up ++ c.prog.acts →
            m.trace u.func (u.done ++ [.push]) → ¬ m.inReg u.func → S u.ra) →
          ∀ c, c' = some c → GangAt m frame snip avx text own depth (g i) S c (M.sees b i)) →
        ∀ j c, setAt T i c' j = some c → GangAt m frame snip avx text own depth (g j)
          (fun v => WeakLost m (.run b (setAt T i c') :: .run a T :: ps) j v ∨
            WeakCut m (.run b (setAt T i c') :: .run a T :: ps) j v) c (M.sees b j) := by
      intro a b T i c' ih ho hi j c hj
      by_cases e : j = i
      · subst e
        refine hi _ (fun v => Or.imp .inr .inr) (fun c0 c up e0 e eu x hx hk =>
          .inl (.inl ⟨a, b, T, _, c0, c, up, rfl, rfl, e0, ?_, eu, x, hx, hk, rfl⟩))
          (fun c0 c u up e0 e eu h1 h2 =>
          .inr (.inl ⟨a, b, T, _, c0, c, u, up, rfl, rfl, e0, ?_, eu, h1, h2, rfl⟩))
          c (by rwa [setAt_same] at hj)
        · rw [setAt_same, e]
        · rw [setAt_same, e]
      · rw [setAt_other _ _ e] at hj
        exact ((ih j c hj).unaware (ho j c e hj)).mono fun v => Or.imp .inr .inr
    cases hst with
    | @step a b T i c c' hi hst hw ho =>
      refine each ih ho fun S hS hn hc c1 e => ?_
      cases e
      obtain ⟨d, k1, k2⟩ := ih i c hi
      obtain ⟨d1, d', k3, k4, k5, k6⟩ := gang_sim hu.1 (fun ha j a n => hu.2 ha _ j a n) k1 hst
      refine ⟨d', k6, ((k2.mono hS).silent k3).step k5 (fun up e => ?_) fun u up e => ?_⟩
      · rw [← k4.prog.acts, ← k6.prog.acts] at e
        exact hn c c' up hi rfl e
      · rw [← k4.prog.acts, ← k6.prog.acts] at e
        exact hc c c' u up hi rfl e
    | @pass a b T i hp ho =>
      intro j c hj
      refine GangAt.mono (fun v => Or.imp .inr .inr) ?_
      by_cases e : j = i
      · subst e
        rw [M.own hp]
        exact ih j c hj
      · exact (ih j c hj).unaware (ho j c e hj)
    | @stop a T i c q hi hst => exact ⟨a, T, c, rfl, hi, hst, ih i c hi⟩
    | @stray a T i c hi hst =>
      obtain ⟨d, k1, _⟩ := ih i c hi
      exact gang_stray k1 hst
    | @spawn a b T i s f p hi hm hr hw ho =>
      refine each ih ho fun S hS _ _ c e => ?_
      cases e
      rw [hm]
      exact ⟨⟨.own s _, []⟩, ⟨.own (.refl _), .nil⟩, .inr ⟨f, p, s, [], hr, .start, fun v hv => hv.elim nofun nofun⟩⟩
    | exit hi => exact each ih (fun _ _ _ _ _ _ => rfl) nofun

/-! ## Processes -/

variable {writes : Func → Prop} (hs : Sound m writes)
  (hfit : ∀ f t ev c s R, m.trace f (t ++ [ev]) → snip f ev c s R →
    SnipFits (m.inReg f) (frame f) c s R ev)
  (hO : ∀ v, own v → ¬ GuardLike v)
include hs hfit hO

/-- How a thread comes to an end, if not in a handler. -/
theorem GangAt.stop {h : W} {S : W → Prop} {mem : Mem} {c : Gang} {q : XProc}
    (hc : GangAt m frame snip avx text own depth h S c mem) (hst : GangStop m frame avx text h mem c q) :
    (c.prog.acts ≠ [] ∧ Arrived m frame snip own depth h S (.run (c.prog.base mem) c.prog.acts) ∧
      crewStep m frame snip own depth h (.run (c.prog.base mem) c.prog.acts) q) ∨
    (q = .killed ∧ c.hands ≠ [] ∧ ∃ d : Crew, CrewRel own avx text h c d ∧ ¬ d.prog.fair h) := by
  obtain ⟨d, k1, k2⟩ := hc
  obtain ⟨d1, k3, k4, k5⟩ := gang_stop (snip := snip) (depth := depth) k1 hst
  rw [k4.prog.acts, k4.prog.base mem]
  rcases (k2.silent k3).stop hs hfit hO k5 with k | ⟨e1, e2, e3⟩
  · exact .inl k
  · refine .inr ⟨e1, fun e => e3 ?_, d1, k4, e2⟩
    have := k4.hands.length
    rw [e] at this
    exact List.length_eq_zero_iff.1 this.symm

/-- The conditions suffice for programs with several threads and signals, whatever memory is like. -/
theorem Sound.weak (hu : GangsUndefined snip own g avx text) (M : Caches) (depth : Nat) :
    WeakProtected m frame snip avx text M own depth g where
  recorded a0 a T ps i s c cs h hi hd := by
    obtain ⟨⟨w, hs'⟩, ⟨hp, hh⟩, h0⟩ := h.weak hu i _ hi
    cases hh
    cases hp with
    | own hc =>
      obtain ⟨f, pos, st, qs, h1, h2, _⟩ := (show _ ∨ _ from h0).resolve_left (by simp)
      obtain ⟨l, k1, k2⟩ := (hs.disturbed (fun _ _ => threadStep_refines hfit) hfit (among_calm hO _ depth) hO f).recorded
        _ _ _ _ _ h1 h2.steps hd
      rw [← hc (M.sees a i)] at k1
      refine ⟨l, k1, fun x hx hx' => (k2 x hx hx').imp id fun ⟨h3, h4⟩ => ⟨h3, ?_⟩⟩
      exact (congrFun (congrArg State.regs (hc (M.sees a i))) _).trans h4
  unchecked a0 ps i v h := by
    obtain ⟨a, T, c, _, hi, hst, hc⟩ := h.weak hu
    rcases hc.stop hs hfit hO hst with ⟨_, ⟨f, pos, st, qs, h1, h2, _⟩, h3⟩ | ⟨e, _⟩
    · exact (hs.disturbed (fun _ _ => threadStep_refines hfit) hfit (among_calm hO _ depth) hO f).unchecked
        _ _ v h1 (h2.steps.step h3)
    · cases e
  accepted a0 a T ps i v h hst := by
    cases hst with
    | @stop _ _ _ c _ hi hst =>
      rcases (h.weak hu i c hi).stop hs hfit hO hst with ⟨_, ⟨f, pos, st, qs, h1, h2, hS⟩, h3⟩ | ⟨e, _⟩
      · rcases (hs.disturbed (fun _ _ => threadStep_refines hfit) hfit (among_calm hO _ depth) hO f).accepted
          _ _ _ _ _ _ h1 h2 h3 with k | k | k | k | k
        · exact .inl k
        · exact .inr (.inl ⟨c, hi, k⟩)
        · exact .inr (.inr ((hS v (.inl k)).imp_right .inl))
        · exact .inr (.inr ((hS v (.inr k)).imp_right .inl))
        · exact .inr (.inr (.inr (.inr k)))
      · cases e
  quiet a0 a T ps i c u us l h hi ha he hl hgl hst := by
    cases hst with
    | @stop _ _ _ c' _ hi' hst =>
      cases hi.symm.trans hi'
      rcases (h.weak hu i c hi).stop hs hfit hO hst with ⟨_, ⟨f, pos, st, qs, h1, h2, _⟩, h3⟩ | ⟨_, _, d, hd, hw⟩
      · rw [ha] at h2 h3
        exact (hs.disturbed (fun _ _ => threadStep_refines hfit) hfit (among_calm hO _ depth) hO f).quiet
          _ _ _ _ _ _ h1 h2.steps he hl hgl h3
      · refine hw ?_
        rw [hd.prog.base] at he hl
        rw [hd.prog.acts] at ha
        cases hc : d.prog with
        | own => trivial
        | busy w k ev s0 s a' as' =>
          rw [hc] at ha he hl
          cases (show a' :: as' = u :: us from ha)
          exact fun _ => ⟨he, fun l' hl' => by rw [hl'.unique hl]; exact hgl⟩
  handlers a0 a T ps i s acts h' hs' h hi hst := by
    cases hst with
    | @stop _ _ _ c' _ hi' hst =>
      cases hi.symm.trans hi'
      obtain ⟨d, k1, k2⟩ := h.weak hu i _ hi
      obtain ⟨⟨w, hs1⟩, k3, ⟨hp, hh⟩, k5⟩ := gang_stop (snip := snip) (depth := depth) k1 hst
      cases hp with
      | @own s t _ hc =>
        cases k5 with
        | own => cases hh
        | trapH h1 =>
          exact (k2.silent k3).alive hs hfit hO (show Worker.fair (g i) (.own t acts) from trivial) h1
  within a0 ps i h := (h.weak hu)

omit hs hfit hO

section
variable {B : Binary} {fl : InstrFlags} {skip : List Nat} {jf : JitFlags} {co : CodeObj} {info : StackInfo}
  {R : Func → RegFacts} {T : Sums} {bf : Func → BFunc} {plan : Func → Plan}
  {dead : Func → DeadNames} {frame : Func → Reg}

/-- **C121, what holds.** A program with several threads and signal handlers, analysed and instrumented by the tool,
whose threads execute the inserted bytes, is protected whatever memory is like, if a thread sees its own writes at
once.  Missing: as in `C102_signals_partial`. -/
theorem C121_weak_partial (hB : BinaryOk B fl jf co info R bf dead frame)
    (hb : Built fl skip co info R T bf plan) (hnr : ∀ f ∈ co.funcs, CallsCovered T f)
    (hcall : ∀ f ∈ co.funcs, NoCallAtCheck fl co (bf f)) (htail : ∀ f ∈ co.funcs, TailsOk co T f)
    (hleft : ∀ f ∈ co.funcs, LeftOk skip co T bf f)
    (hh : ∀ f ∈ co.funcs, HandlersOk co (bf f) f)
    (hc : ∀ f ∈ co.funcs, ∀ L, doLowering fl co f (some (T f)) = some (some L) → CleanupOnly co T f)
    {H : Func → List Ev → Func → Prop} (hH : HandlersAt fl T bf H)
    {own : W → Prop} (hown : ∀ v, own v → ¬ GuardLike v) {g : Nat → W} {avx : Bool} {text : W → Byte}
    (hu : GangsUndefined (B.Snippet jf (fun f => (T f).jit (dead f)) co plan) own g avx text) (M : Caches) (depth : Nat) :
    WeakProtected ((semOn Flow co plan info (inRegOf fl T) (staysOf bf)).handling H) frame
      (B.Snippet jf (fun f => (T f).jit (dead f)) co plan) avx text M own depth g :=
  ((built_sound_handlers hb hcall hnr htail hleft hh hc).handling (H := H) fun f t h k => by
    obtain ⟨k1, k2⟩ := hH f t h k
    exact ⟨k1, fun hw => ⟨(k2 hw).1,
      fun hst => (k2 hw).2 (by simpa using (show ¬ (bf f).noReturn = true from hst))⟩⟩).weak
    (fun _ _ _ _ _ _ ht h => snippets_fit hB hb hcall (And.left (b := ∃ _, _) ht) h) hown hu M depth

end

end Verif
