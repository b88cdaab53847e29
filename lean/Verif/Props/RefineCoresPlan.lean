import Verif.RefineCoresPlan
import Verif.Props.RefineCores
import Verif.Props.RefineTeamPlan

/-!
# C123: programs instrumented by the plans do what the originals do on processors with store buffers
-/

namespace Verif

variable {ι κ L : Type} [DecidableEq ι]

/-! ## The program as one of its threads sees it -/

/-- The program as thread `i` sees it: control points are the states of all threads, and what the others and the buffers do are
steps. -/
def coreThread (P : CoreGuest κ L) (i : ι) : Guest (Cores ι κ) (List (ι × L)) where
  step M s ls M' s' := s = M.at_ i ∧ s' = M'.at_ i ∧ ((∃ j l, ls = l.map (Prod.mk j) ∧ CoreMove P M j l M') ∨
    ∃ j c k', j ≠ i ∧ ls = [] ∧ P.site (M.pos j) = some (c, k') ∧ M' = M.put j k' (M.cpu j) [])
  site M := (P.site (M.pos i)).map fun p => (p.1, M.put i p.2 (M.cpu i) [])

/-- What the thread does not look at. -/
def coreThreadBlind (D : ι → Blind κ) (A : ι → W → Prop) (i : ι) : Blind (Cores ι κ) where
  regs M := (D i).regs (M.pos i)
  flags M := (D i).flags (M.pos i)
  mem M sp x := (coreBlind D A i).mem (M.pos i) sp x
  frame M := (D i).frame (M.pos i)

section
variable {P : CoreGuest κ L} {M0 : Cores ι κ} {i : ι}

theorem Cores.put_pos (M : Cores ι κ) (i : ι) (k : κ) (c : Cpu) (ws : List (W × Byte)) : (M.put i k c ws).pos i = k := if_pos rfl

theorem Cores.put_pos_ne (M : Cores ι κ) {i j : ι} (h : j ≠ i) (k : κ) (c : Cpu) (ws : List (W × Byte)) :
    (M.put i k c ws).pos j = M.pos j := if_neg h

theorem Cores.put_at_ne (M : Cores ι κ) {i j : ι} (h : j ≠ i) (k : κ) (c : Cpu) (ws : List (W × Byte)) :
    (M.put i k c ws).at_ j = M.at_ j := Cores.at_eq (if_neg h) (M.put_view_ne h k c ws)

theorem coreThread_site {M M' : Cores ι κ} {c : Code} (h : (coreThread P i).site M = some (c, M')) :
    ∃ k', P.site (M.pos i) = some (c, k') ∧ M' = M.put i k' (M.cpu i) [] := by
  simp only [coreThread, Option.map_eq_some_iff] at h
  obtain ⟨⟨c', k'⟩, h1, h2⟩ := h
  cases h2
  exact ⟨k', h1, rfl⟩

theorem coreThread_run {tr : List (List (ι × L))} {M : Cores ι κ} {s : State}
    (h : BareRun (coreThread P i) M0 (M0.at_ i) tr M s) : s = M.at_ i ∧ ∃ tr', CoreRun P M0 tr' M := by
  induction h with
  | start => exact ⟨rfl, _, .start⟩
  | step _ hs ih =>
    obtain ⟨rfl, tr', ht⟩ := ih
    cases hs with
    | own hs =>
      obtain ⟨_, h2, h3⟩ := hs
      refine ⟨h2, ?_⟩
      rcases h3 with ⟨j, l, _, h⟩ | ⟨j, c, k', _, _, h, rfl⟩
      · exact ⟨_, ht.move h⟩
      · exact ⟨_, ht.pass h⟩
    | pass hx =>
      obtain ⟨k', h1, rfl⟩ := coreThread_site hx
      exact ⟨(Cores.put_nil _ _ _).symm, _, ht.pass h1⟩

theorem run_coreThread {tr : List (ι × L)} {M : Cores ι κ} (h : CoreRun P M0 tr M) :
    ∃ tr', BareRun (coreThread P i) M0 (M0.at_ i) tr' M (M.at_ i) := by
  induction h with
  | start => exact ⟨_, .start⟩
  | move _ hs ih =>
    obtain ⟨tr', ht⟩ := ih
    exact ⟨_, ht.step (.own ⟨rfl, rfl, .inl ⟨_, _, rfl, hs⟩⟩)⟩
  | @pass tr M j c k' _ hx ih =>
    obtain ⟨tr', ht⟩ := ih
    by_cases e : j = i
    · subst e
      have : (coreThread P j).site M = some (c, M.put j k' (M.cpu j) []) := by simp [coreThread, hx]
      have := ht.step (.pass this)
      exact ⟨_, by rw [Cores.put_nil]; exact this⟩
    · exact ⟨_, ht.step (.own ⟨rfl, rfl, .inr ⟨_, _, _, e, rfl, hx, rfl⟩⟩)⟩

end

section
variable {P : CoreGuest κ L} {m : ProgSem} {frame : Func → Reg}
variable {snip : Func → Ev → Place → Code → State → W → Prop} {spoils : Func → Ev → Place → Reg → Prop}
variable {D : ι → Blind κ} {view : ι → κ → List XAct} {loose : Prop} {g : ι → W} {A : ι → W → Prop} {M0 : Cores ι κ}

/-- What waits in a buffer is not for the areas of others. -/
theorem CoreRun.ours (hR : P.Respects D g A M0) {tr : List (ι × L)} {M : Cores ι κ} (h : CoreRun P M0 tr M) {i j : ι}
    (hj : j ≠ i) : ∀ w ∈ M.buf i, ¬ A j w.1 := by
  induction h with
  | start => exact hR.waits i j hj
  | @move tr M M' n ls h hs ih =>
    cases hs with
    | @own l k' c ws _ hs =>
      intro w hw
      by_cases e : i = n
      · subst e
        simp only [Cores.put, if_true] at hw
        rcases List.mem_append.1 hw with hw | hw
        · exact ih w hw
        · exact ((hR.spares _ _ _ _ _ _ _ _ h (Near.rfl' _ _ _ _) hs).2.1 w hw).2 j hj
      · simp only [Cores.put, if_neg e] at hw
        exact ih w hw
    | locked _ _ hs => exact ih
    | drain hb =>
      intro w hw
      by_cases e : i = n
      · subst e
        simp only [Cores.drain, if_true] at hw
        exact ih w (by rw [hb]; exact List.mem_cons_of_mem _ hw)
      · simp only [Cores.drain, if_neg e] at hw
        exact ih w hw
  | pass h _ ih => rw [Cores.put_nil_buf]; exact ih

/-- What a thread sees of its area is changed by itself only. -/
theorem CoreMove.still (hR : P.Respects D g A M0) {tr : List (ι × L)} {M M' : Cores ι κ} (h : CoreRun P M0 tr M) {i j : ι}
    {ls : List L} (hs : CoreMove P M j ls M') (hj : i ≠ j) {x : W} (hx : A i x) : M'.view i x = M.view i x := by
  cases hs with
  | own _ hs => rw [M.put_view_ne hj]
  | locked _ _ hs =>
    exact M.sync_view_ne _ _ _ _ fun w hw => away (((hR.spares _ _ _ _ _ _ _ _ h (Near.rfl' _ _ _ _) hs).2.1 w hw).2 i hj) hx
  | drain hb => exact M.drain_view_ne hj (away (h.ours hR hj _ (by rw [hb]; exact List.mem_cons_self)) hx)

/-- What happens is a step of the activations of each thread. -/
theorem CoreMove.moves (hP : P.Follows m frame snip spoils D view loose g A M0) (hR : P.Respects D g A M0)
    {tr : List (ι × L)} {M M' : Cores ι κ} (h : CoreRun P M0 tr M) {j : ι} {ls : List L} (hs : CoreMove P M j ls M') (i : ι) :
    Moves m loose (view i (M.pos i)) (M.at_ i) (view i (M'.pos i)) (M'.at_ i) := by
  have same : M'.pos i = M.pos i → (∀ x, A i x → M'.view i x = M.view i x) →
      Moves m loose (view i (M.pos i)) (M.at_ i) (view i (M'.pos i)) (M'.at_ i) := by
    intro e hv
    rw [e]
    exact .work fun a ha => read64_eq _ _ _ fun x hx => hv x (hP.stack _ _ _ h a ha x hx)
  by_cases e : i = j
  · subst e
    cases hs with
    | own hl hs =>
      rename_i k' c ws
      have := hP.moves _ _ _ _ _ _ _ h (fun h => absurd h hl) hs
      rw [Cores.put_pos, show (M.put i k' c ws).at_ i = c.with_ (afterWrites (M.view i) ws) by
        rw [← Cores.put_view M i k' c]; simp [Cores.at_, Cores.put]]
      exact this
    | locked hl hb hs =>
      rename_i k' c ws
      have := hP.moves _ _ _ _ _ _ _ h (fun _ => hb) hs
      rw [show (M.sync i k' c ws).at_ i = c.with_ (afterWrites (M.view i) ws) by
        rw [← Cores.sync_view M i k' c _ hb]; simp [Cores.at_, Cores.sync],
        show (M.sync i k' c ws).pos i = k' from if_pos rfl]
      exact this
    | drain hb => exact same rfl fun x _ => by rw [M.drain_view i hb]
  · refine same ?_ fun x hx => hs.still hR h e hx
    cases hs <;> simp [Cores.put, Cores.sync, Cores.drain, e]

theorem CoreMove.framed (hR : P.Respects D g A M0) {tr : List (ι × L)} {M M' : Cores ι κ} (h : CoreRun P M0 tr M) {j : ι}
    {ls : List L} (hs : CoreMove P M j ls M') (i : ι) : (D i).frame (M'.pos i) = (D i).frame (M.pos i) := by
  by_cases e : i = j
  · subst e
    cases hs with
    | own hl hs => rw [Cores.put_pos]; exact (hR.spares _ _ _ _ _ _ _ _ h (Near.rfl' _ _ _ _) hs).2.2.2
    | locked hl hb hs =>
      rw [show (M.sync i _ _ _).pos i = _ from if_pos rfl]
      exact (hR.spares _ _ _ _ _ _ _ _ h (Near.rfl' _ _ _ _) hs).2.2.2
    | drain hb => rfl
  · cases hs <;> simp [Cores.put, Cores.sync, Cores.drain, e]

theorem Stop.core (hR : P.Respects D g A M0) {M : Cores ι κ} {i : ι} {k' : κ} {c : Code} {a : XAct} {ev : Ev} {pl : Place}
    (h : Stop m frame snip spoils (D i) (g i) (M.pos i) k' (view i (M.pos i)) c (M.at_ i) a ev pl)
    (hv : ∀ x, InRange x a.at_ 8 → A i x) :
    Stop m frame snip spoils (coreThreadBlind D A i) (g i) M (M.put i k' (M.cpu i) []) (view i (M.pos i)) c (M.at_ i) a ev pl where
  trace := h.trace
  code := h.code
  clear := h.clear
  visible x hx := by
    rintro (h1 | ⟨j, hj, h1⟩)
    · exact h.visible x hx h1
    · exact hj (hR.apart _ _ _ h1 (hv x hx))
  mem x hx := by
    show (coreBlind D A i).mem ((M.put i k' (M.cpu i) []).pos i) _ x
    rw [Cores.put_pos]
    rcases hx with (h1 | h1) | h1
    · exact .inl (h.mem x (.inl h1))
    · exact .inr h1
    · exact .inl (h.mem x (.inr h1))
  regs r hr := by
    show (D i).regs ((M.put i k' (M.cpu i) []).pos i) r
    rw [Cores.put_pos]; exact h.regs r hr
  flags hf := by
    show (D i).flags ((M.put i k' (M.cpu i) []).pos i)
    rw [Cores.put_pos]; exact h.flags hf
  unused := h.unused

/-- Each thread is as in `Verif.RefinePlan`. -/
theorem CoreGuest.Follows.thread (hP : P.Follows m frame snip spoils D view loose g A M0) (hR : P.Respects D g A M0) (i : ι) :
    (coreThread P i).Follows m frame snip spoils (coreThreadBlind D A i) (fun M => view i (M.pos i)) loose (g i) M0
      (M0.at_ i) where
  begins := hP.begins i
  moves tr M s l M' s' hrun hs := by
    obtain ⟨rfl, tr', hc⟩ := coreThread_run hrun
    obtain ⟨_, rfl, h⟩ := hs
    rcases h with ⟨j, l, _, h⟩ | ⟨j, c, k', hj, _, h, rfl⟩
    · exact h.moves hP hR hc i
    · rw [Cores.put_pos_ne _ (Ne.symm hj), Cores.put_at_ne _ (Ne.symm hj)]
      exact .work fun _ _ => rfl
  sites tr M s c M' hrun hs := by
    obtain ⟨rfl, tr', hc⟩ := coreThread_run hrun
    obtain ⟨k', h1, rfl⟩ := coreThread_site hs
    obtain ⟨a, as, ev, pl, e1, e2, hS⟩ := hP.sites _ _ _ _ _ hc h1
    exact ⟨a, as, ev, pl, e1, by rw [Cores.put_pos]; exact e2, hS.core hR (hP.stack _ _ _ hc a (by rw [e1]; exact List.mem_cons_self))⟩
  frame M r := hP.frame i (M.pos i) r

theorem announced_core {i : ι} {l : List W} {M : Cores ι κ} {s : State}
    (h : Announced (coreThread P i) m (fun M => view i (M.pos i)) M0 (M0.at_ i) l M s) :
    s = M.at_ i ∧ CoreAnnounced P m view M0 i l M := by
  induction h with
  | start => exact ⟨rfl, .start⟩
  | own _ hs ih =>
    obtain ⟨rfl, ih⟩ := ih
    obtain ⟨_, rfl, h⟩ := hs
    refine ⟨rfl, ?_⟩
    rcases h with ⟨j, l, _, h⟩ | ⟨j, c, k', hj, _, h, rfl⟩
    · exact .move ih h
    · exact .other ih hj h
  | push _ hs e1 e2 hn ih =>
    obtain ⟨rfl, ih⟩ := ih
    obtain ⟨k', h1, rfl⟩ := coreThread_site hs
    rw [Cores.put_pos] at e2
    exact ⟨(Cores.put_nil _ _ _).symm, .push ih h1 e1 e2 hn⟩
  | check _ hs e1 e2 hn hf ih =>
    obtain ⟨rfl, ih⟩ := ih
    obtain ⟨k', h1, rfl⟩ := coreThread_site hs
    rw [Cores.put_pos] at e2
    exact ⟨(Cores.put_nil _ _ _).symm, .check ih h1 e1 e2 hn hf⟩
  | frame _ hs e1 hn ih =>
    obtain ⟨rfl, ih⟩ := ih
    obtain ⟨k', h1, rfl⟩ := coreThread_site hs
    exact ⟨(Cores.put_nil _ _ _).symm, .frame ih h1 e1 hn⟩

/-- The books can be kept. -/
theorem InOrder.cores (hO : InOrder m loose)
    (hsnip : ∀ f t ev pl c s R, m.trace f (t ++ [ev]) → snip f ev pl c s R →
      SnipFitsIn (m.inReg f) (frame f) (spoils f ev pl) pl.width c s R ev)
    (hP : P.Follows m frame snip spoils D view loose g A M0) (hR : P.Respects D g A M0)
    (hroom : ∀ tr M i b c k', CoreRun P M0 tr M → P.site (M.pos i) = some (c, k') →
      GInv m loose b (view i (M.pos i)) (M.at_ i) → CoreAnnounced P m view M0 i b.pend M →
      32 + 8 * b.pend.length + 8 ≤ regionSize) :
    P.Accounts D g A M0 fun i b M => GInv m loose b (view i (M.pos i)) (M.at_ i) ∧
      Announced (coreThread P i) m (fun M => view i (M.pos i)) M0 (M0.at_ i) b.pend M (M.at_ i) where
  start i := ⟨GInv.start (view := fun M : Cores ι κ => view i (M.pos i)) (hP.thread hR i), .start⟩
  move tr M i j b ls M' hrun h hs := by
    have hF := hP.thread hR j
    refine ⟨h.1.move hO (hs.moves hP hR hrun j) ?_, .own h.2 ⟨rfl, rfl, .inl ⟨_, _, rfl, hs⟩⟩⟩
    have e := leafy_iff hF (k := M)
    have e' := leafy_iff hF (k := M')
    simp only [coreThreadBlind] at e e'
    rw [e, e', hs.framed hR hrun j]
  other tr M i j b c k' hrun h hj hx := by
    have hst : (coreThread P j).step M (M.at_ j) [] (M.put i k' (M.cpu i) []) ((M.put i k' (M.cpu i) []).at_ j) :=
      ⟨rfl, rfl, .inr ⟨_, _, _, Ne.symm hj, rfl, hx, rfl⟩⟩
    refine ⟨?_, .own h.2 hst⟩
    rw [Cores.put_pos_ne _ hj, Cores.put_at_ne _ hj]
    exact h.1
  pass tr M i b c k' hrun h hx := by
    obtain ⟨a, as, ev, pl, e1, e2, hS⟩ := hP.sites _ _ _ _ _ hrun hx
    have hv := hP.stack _ _ _ hrun a (by rw [e1]; exact List.mem_cons_self)
    have hs : (coreThread P i).site M = some (c, M.put i k' (M.cpu i) []) := by simp [coreThread, hx]
    have hpos : (M.put i k' (M.cpu i) []).pos i = k' := Cores.put_pos _ _ _ _ _
    obtain ⟨x, b', h1, h2, h3, h4, h5, h6⟩ := GInv.pass hO hsnip (hP.thread hR i) e1
      (by rw [hpos]; exact e2) (hS.core hR hv) hs h.1 h.2
      (hroom _ _ _ _ _ _ hrun hx h.1 (announced_core h.2).2)
    refine ⟨x, b', h1, ⟨h2.emitted, h2.apart, h2.visible, fun y hy => ?_, fun r hr => ?_, fun hf => ?_, ?_⟩, h3,
      by rw [Cores.put_nil]; exact h4, fun y hy => hv y (h5 ▸ hy), fun y hy => ?_⟩
    · have := h2.mem y hy
      simp only [coreThreadBlind, Cores.put_pos] at this
      exact this
    · have := h2.regs r hr
      simp only [coreThreadBlind, Cores.put_pos] at this
      exact this
    · have := h2.flags hf
      simp only [coreThreadBlind, Cores.put_pos] at this
      exact this
    · have := h2.frames
      cases x <;> simp only [Site.frames, coreThreadBlind, Cores.put_pos] at this <;> exact this
    · exact hS.mem y (.inr (below_mono hy h6 (width_le pl)))

end

/-! ## Plans -/

theorem CoreGuest.Follows.frameless {P : CoreGuest κ L} {m : ProgSem} {frame : Func → Reg}
    {snip : Func → Ev → Place → Code → State → W → Prop} {spoils : Func → Ev → Place → Reg → Prop}
    {D : ι → Blind κ} {view : ι → κ → List XAct} {loose : Prop} {g : ι → W} {A : ι → W → Prop} {M0 : Cores ι κ}
    (hP : P.Follows m frame snip spoils D view loose g A M0) (i : ι) : (D i).frame (M0.pos i) = none := by
  cases hf : (D i).frame (M0.pos i) with
  | none => rfl
  | some r =>
    obtain ⟨a, as, e, _, h, _⟩ := (hP.frame i (M0.pos i) r).1 hf
    rw [(hP.begins i a (by rw [e]; simp)).1] at h
    cases h

section
variable {fl : InstrFlags} {skip : List Nat} {co : CodeObj} {info : StackInfo} {R : Func → RegFacts} {T : Sums}
  {bf : Func → BFunc} {plan : Func → Plan} {B : Binary} {jf : JitFlags} {dead : Func → DeadNames}
  {frame : Func → Reg} {P : CoreGuest κ L} {D : ι → Blind κ} {view : ι → κ → List XAct} {g : ι → W} {A : ι → W → Prop}
  {M0 : Cores ι κ}

/-- **C123 for light mode**: C109 for threads whose writes wait in store buffers. -/
theorem C123_light_partial (hB : BinaryOk B fl jf co info R bf dead frame)
    (hb : Built fl skip co info R T bf plan) (hcall : ∀ f ∈ co.funcs, NoCallAtCheck fl co (bf f))
    (hP : P.Follows (semOf co info plan (inRegOf fl T) (staysOf bf)) frame
      (B.SnippetAt jf (fun f => (T f).jit (dead f)) co plan) (B.Spoils jf co dead) D view False g A M0)
    (hR : P.Respects D g A M0) (hr : ∀ i, Recorded (g i) [] (M0.at_ i))
    (hdepth : ∀ tr M i, CoreRun P M0 tr M → 40 + 8 * (view i (M.pos i)).length ≤ regionSize) :
    P.Refines D A M0 := by
  refine C123_same_behaviour hR ⟨_, (built_ordered hb hcall False).cores
    (fun f t ev pl c s r ht h => snippets_within hB hb hcall (And.left (b := ∃ _, _) ht) h) hP hR ?_⟩ hr hP.frameless
  intro tr M i b c k' hrun _ hi _
  have := amid_length id hi.pend
  rw [List.length_map] at this
  have := hdepth tr M i hrun
  omega

/-- **C123 with exceptions and `longjmp`.** -/
theorem C123_unwinding_partial (hB : BinaryOk B fl jf co info R bf dead frame)
    (hb : Built fl skip co info R T bf plan) (hcall : ∀ f ∈ co.funcs, NoCallAtCheck fl co (bf f))
    (hh : ∀ f ∈ co.funcs, HandlersOk co (bf f) f)
    (hn : ∀ f ∈ co.funcs, inRegOf fl T f → ∀ b ∈ co.blocks f, ∀ e ∈ co.targets b, e.type ≠ .catch)
    (hP : P.Follows (semOn Flow co plan info (inRegOf fl T) (staysOf bf)) frame
      (B.SnippetAt jf (fun f => (T f).jit (dead f)) co plan) (B.Spoils jf co dead) D view True g A M0)
    (hR : P.Respects D g A M0) (hr : ∀ i, Recorded (g i) [] (M0.at_ i))
    (hroom : ∀ i l M, CoreAnnounced P (semOn Flow co plan info (inRegOf fl T) (staysOf bf)) view M0 i l M →
      40 + 8 * l.length ≤ regionSize) :
    P.Refines D A M0 := by
  refine C123_same_behaviour hR ⟨_, (built_ordered_handlers hb hcall hh hn).cores
    (fun f t ev pl c s r ht h => snippets_within hB hb hcall (And.left (b := ∃ _, _) ht) h) hP hR ?_⟩ hr hP.frameless
  intro tr M i b c k' _ _ _ ht
  have := hroom _ _ _ ht
  omega

/-- **C123 for full mode.** -/
theorem C123_full_partial (hB : FullBinaryOk B jf co) (hb : BuiltFull fl skip co bf plan)
    (hP : P.Follows (semOf co info plan (fun _ => False) (staysOf bf)) frame (B.FullSnippetAt jf co plan)
      (fun _ _ _ _ => False) D view False g A M0)
    (hR : P.Respects D g A M0) (hr : ∀ i, Recorded (g i) [] (M0.at_ i))
    (hdepth : ∀ tr M i, CoreRun P M0 tr M → 40 + 8 * (view i (M.pos i)).length ≤ regionSize) :
    P.Refines D A M0 := by
  refine C123_same_behaviour hR ⟨_, (full_ordered hb False fun f hf b hx _ => (hb.func f hf).exits b hx).cores
    (fun f t ev pl c s r ht h => full_within hB hb (And.left (b := ∃ _, _) ht) h) hP hR ?_⟩ hr hP.frameless
  intro tr M i b c k' hrun _ hi _
  have := amid_length id hi.pend
  rw [List.length_map] at this
  have := hdepth tr M i hrun
  omega

/-- **C123 for full mode, with exceptions and `longjmp`.** -/
theorem C123_full_unwinding_partial (hB : FullBinaryOk B jf co) (hb : BuiltFull fl skip co bf plan)
    (hh : ∀ f ∈ co.funcs, HandlersOk co (bf f) f)
    (hP : P.Follows (semOn Flow co plan info (fun _ => False) (staysOf bf)) frame (B.FullSnippetAt jf co plan)
      (fun _ _ _ _ => False) D view True g A M0)
    (hR : P.Respects D g A M0) (hr : ∀ i, Recorded (g i) [] (M0.at_ i))
    (hroom : ∀ i l M, CoreAnnounced P (semOn Flow co plan info (fun _ => False) (staysOf bf)) view M0 i l M →
      40 + 8 * l.length ≤ regionSize) :
    P.Refines D A M0 := by
  refine C123_same_behaviour hR ⟨_, (full_ordered hb True fun f hf => (hh f hf).exits).cores
    (fun f t ev pl c s r ht h => full_within hB hb (And.left (b := ∃ _, _) ht) h) hP hR ?_⟩ hr hP.frameless
  intro tr M i b c k' _ _ _ ht
  have := hroom _ _ _ ht
  omega

end

/-! ## Live variables -/

section
variable {code : κ → Option (Action κ L)} {wr : κ → State → L → List (W × Byte)} {lock : κ → Prop}
  {site : κ → Option (Code × κ)} {D : ι → Blind κ} {g : ι → W} {A : ι → W → Prop} {M0 : Cores ι κ}

theorem CoreLoses.blind (hL : CoreLoses code wr lock site D g A M0) {tr : List (ι × L)} {M : Cores ι κ} {i : ι}
    {o : Action κ L} (hr : CoreRun (coreOf code wr lock site) M0 tr M) (hk : code (M.pos i) = some o) :
    (∀ r, (coreBlind D A i).hides (M.pos i) r → ¬ o.uses r) ∧ ((coreBlind D A i).flags (M.pos i) → ¬ o.usesFlags) ∧
    ∀ a, o.loads (M.at_ i) a → ¬ (coreBlind D A i).mem (M.pos i) (M.sp i) a := by
  obtain ⟨h1, h2, h3⟩ := hL.reads tr M i o hr hk
  refine ⟨fun r h => ?_, h2, fun a ha => ?_⟩
  · rcases h with h | h
    · exact h1 r h
    · exact ((hL.spares tr M i o hr hk).1 r h).1
  · rintro (h | ⟨j, hj, h⟩)
    · exact (h3 a ha).1 h
    · exact (h3 a ha).2 j hj h

/-- Both states lead to the same. -/
theorem CoreLoses.both (hf : ∀ k o, code k = some o → o.Fair ∧ o.Writes (wr k)) (hL : CoreLoses code wr lock site D g A M0)
    {tr : List (ι × L)} {M : Cores ι κ} {i : ι} {t : State} {o : Action κ L}
    (hr : CoreRun (coreOf code wr lock site) M0 tr M) (hk : code (M.pos i) = some o)
    (hst : (coreBlind D A i).Same (M.pos i) (M.at_ i) t) : (∀ a, o.stores t a ↔ o.stores (M.at_ i) a) ∧
    ∀ l, wr (M.pos i) t l = wr (M.pos i) (M.at_ i) l ∧
      SameResult (fun r => (D i).hides (M.pos i) r ∧ ¬ o.sets r) ((D i).flags (M.pos i) ∧ ¬ o.setsFlags)
      (fun a => (coreBlind D A i).mem (M.pos i) (M.sp i) a ∧ ¬ o.stores (M.at_ i) a) (o.run (M.at_ i) l) (o.run t l) := by
  obtain ⟨h1, h2, h3⟩ := hL.blind hr hk
  obtain ⟨k1, k2⟩ := (hf _ o hk).1.dep _ _ _ _ t hst h1 h2 h3
  exact ⟨k1, fun l => ⟨(hf _ o hk).2.dep _ _ _ _ t l hst h1 h2 h3, k2 l⟩⟩

theorem CoreLoses.next (hL : CoreLoses code wr lock site D g A M0) {tr : List (ι × L)} {M : Cores ι κ} {i : ι} {k' : κ}
    {s' t' : State} {o : Action κ L} {l : L} (hr : CoreRun (coreOf code wr lock site) M0 tr M)
    (hk : code (M.pos i) = some o) (hs : o.run (M.at_ i) l = some (k', s'))
    (h : Near (fun r => (D i).hides (M.pos i) r ∧ ¬ o.sets r) ((D i).flags (M.pos i) ∧ ¬ o.setsFlags)
      (fun a => (coreBlind D A i).mem (M.pos i) (M.sp i) a ∧ ¬ o.stores (M.at_ i) a) s' t') :
    (coreBlind D A i).Same k' s' t' := by
  obtain ⟨h1, h2, h3, h4⟩ := hL.goes tr M i o l k' s' hr hk hs
  refine ⟨fun r hr' => h.regs r fun hh => hr' ?_, fun hF => h.flags fun hh => hF (h2 hh.1 hh.2), h.gs,
    fun a ha => h.mem a fun hh => ha ?_⟩
  · rcases hh with ⟨hh | hh, hn⟩
    · exact .inl (h1 r hh hn)
    · exact .inr (h4.trans hh)
  · rcases hh with ⟨hh | hh, hn⟩
    · exact .inl (h3 a hh hn)
    · exact .inr hh

/-- **C123.** Threads made of instructions which do what they declare cannot see the snippets, if what these destroy is not live
and in their own areas. -/
theorem C123_respects (hf : ∀ k o, code k = some o → o.Fair ∧ o.Writes (wr k)) (hL : CoreLoses code wr lock site D g A M0) :
    (coreOf code wr lock site).Respects D g A M0 where
  rsp := hL.rsp
  region := hL.region
  hidden := hL.hidden
  apart := hL.apart
  waits := hL.waits
  spares tr M i t ws l k' c hr hst h := by
    obtain ⟨o, t', hk, ht, rfl, rfl⟩ := h
    obtain ⟨h1, h2⟩ := hL.both hf hr hk hst
    obtain ⟨h3, h4⟩ := hL.spares tr M i o hr hk
    obtain ⟨k1, k2, k3⟩ := (hf _ o hk).1.keep t l k' t' ht
    refine ⟨k1, fun w hw => h4 _ ((h1 _).1 ((hf _ o hk).2.stores _ _ _ _ ht w hw)), fun r hr' => k2 r (h3 r hr').2, ?_⟩
    have := (h2 l).2
    rw [ht] at this
    cases hs : o.run (M.at_ i) l with
    | none => rw [hs] at this; exact this.elim
    | some p =>
      obtain ⟨k1, s'⟩ := p
      rw [hs] at this
      obtain ⟨rfl, _⟩ := this
      exact (hL.goes tr M i o l _ s' hr hk hs).2.2.2
  forth tr M i t ws l k' c hr hst h := by
    obtain ⟨o, s', hk, hs, rfl, rfl⟩ := h
    obtain ⟨hw, this⟩ := (hL.both hf hr hk hst).2 l
    rw [hs] at this
    cases ht : o.run t l with
    | none => rw [ht] at this; exact this.elim
    | some p =>
      obtain ⟨k1, t'⟩ := p
      rw [ht] at this
      obtain ⟨rfl, hn⟩ := this
      refine ⟨_, _, ⟨o, t', hk, ht, rfl, rfl⟩, by rw [hw], ?_⟩
      have e1 := (hf _ o hk).2.after _ _ _ _ hs
      have e2 := (hf _ o hk).2.after _ _ _ _ ht
      rw [e2, show M.view i = (M.at_ i).mem from rfl, e1]
      exact hL.next hr hk hs hn
  back tr M i t ws l k' c hr hst h := by
    obtain ⟨o, t', hk, ht, rfl, rfl⟩ := h
    obtain ⟨hw, this⟩ := (hL.both hf hr hk hst).2 l
    rw [ht] at this
    cases hs : o.run (M.at_ i) l with
    | none => rw [hs] at this; exact this.elim
    | some p =>
      obtain ⟨k1, s'⟩ := p
      rw [hs] at this
      obtain ⟨rfl, hn⟩ := this
      refine ⟨_, _, ⟨o, s', hk, hs, rfl, rfl⟩, by rw [hw], ?_⟩
      have e1 := (hf _ o hk).2.after _ _ _ _ hs
      have e2 := (hf _ o hk).2.after _ _ _ _ ht
      rw [e2, show M.view i = (M.at_ i).mem from rfl, e1]
      exact hL.next hr hk hs hn

end

end Verif
