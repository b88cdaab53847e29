import Verif.RefineTeamPlan
import Verif.Props.RefineTeam
import Verif.Props.RefineLive

/-!
# C109: programs with several threads, instrumented by the plans, do what the originals do
-/

namespace Verif

variable {ι κ L : Type} [DecidableEq ι]

/-! ## The program as one of its threads sees it -/

/-- The program as thread `i` sees it: control points are the states of all threads, and what the others do are
steps which change memory. -/
def threadGuest (P : Guest κ L) (i : ι) : Guest (Squad ι κ) (List (ι × L)) where
  step M s ls M' s' := s = M.at_ i ∧ s' = M'.at_ i ∧
    ((∃ l k' s1, ls = [(i, l)] ∧ P.step (M.pos i) s l k' s1 ∧ M' = M.put i k' s1) ∨
    ∃ j l k' s1, j ≠ i ∧ ls = l.map (Prod.mk j) ∧ Bare P (M.pos j) (M.at_ j) l k' s1 ∧ M' = M.put j k' s1)
  site M := (P.site (M.pos i)).map fun p => (p.1, M.put i p.2 (M.at_ i))

/-- What the thread does not look at. -/
def threadBlind (D : ι → Blind κ) (i : ι) : Blind (Squad ι κ) where
  regs M := (D i).regs (M.pos i)
  flags M := (D i).flags (M.pos i)
  mem M sp x := (M.blind D i).mem (M.pos i) sp x
  frame M := (D i).frame (M.pos i)

section
variable {P : Guest κ L} {M0 : Squad ι κ} {i : ι}

theorem thread_site {M M' : Squad ι κ} {c : Code} (h : (threadGuest P i).site M = some (c, M')) :
    ∃ k', P.site (M.pos i) = some (c, k') ∧ M' = M.put i k' (M.at_ i) := by
  simp only [threadGuest, Option.map_eq_some_iff] at h
  obtain ⟨⟨c', k'⟩, h1, h2⟩ := h
  cases h2
  exact ⟨k', h1, rfl⟩

theorem thread_run {tr : List (List (ι × L))} {M : Squad ι κ} {s : State}
    (h : BareRun (threadGuest P i) M0 (M0.at_ i) tr M s) : s = M.at_ i ∧ ∃ tr', SquadRun P M0 tr' M := by
  induction h with
  | start => exact ⟨rfl, _, .start⟩
  | step _ hs ih =>
    obtain ⟨rfl, tr', ht⟩ := ih
    cases hs with
    | own hs =>
      obtain ⟨_, h2, h3⟩ := hs
      refine ⟨h2, ?_⟩
      rcases h3 with ⟨l, k', s1, _, h, rfl⟩ | ⟨j, l, k', s1, _, _, h, rfl⟩
      · exact ⟨_, ht.step (.own h)⟩
      · exact ⟨_, ht.step h⟩
    | pass hx =>
      obtain ⟨k', h1, rfl⟩ := thread_site hx
      exact ⟨(put_at _ _ _ _).symm, _, ht.step (.pass h1)⟩

theorem run_thread {tr : List (ι × L)} {M : Squad ι κ} (h : SquadRun P M0 tr M) :
    ∃ tr', BareRun (threadGuest P i) M0 (M0.at_ i) tr' M (M.at_ i) := by
  induction h with
  | start => exact ⟨_, .start⟩
  | @step tr M j ls k' s' _ hs ih =>
    obtain ⟨tr', ht⟩ := ih
    by_cases e : j = i
    · subst e
      cases hs with
      | own hs => exact ⟨_, ht.step (.own ⟨rfl, rfl, .inl ⟨_, _, _, rfl, hs, rfl⟩⟩)⟩
      | pass hx =>
        rename_i c
        have : (threadGuest P j).site M = some (c, M.put j k' (M.at_ j)) := by simp [threadGuest, hx]
        have := ht.step (.pass this)
        exact ⟨_, by rw [put_at]; exact this⟩
    · exact ⟨_, ht.step (.own ⟨rfl, rfl, .inr ⟨_, _, _, _, e, rfl, hs, rfl⟩⟩)⟩

end

section
variable {P : Guest κ L} {m : ProgSem} {frame : Func → Reg}
variable {snip : Func → Ev → Place → Code → State → W → Prop} {spoils : Func → Ev → Place → Reg → Prop}
variable {D : ι → Blind κ} {view : ι → κ → List XAct} {loose : Prop} {g : ι → W} {M0 : Squad ι κ}

theorem Stop.joint {M : Squad ι κ} {i : ι} {k' : κ} {c : Code} {a : XAct} {ev : Ev} {pl : Place}
    (h : Stop m frame snip spoils (D i) (g i) (M.pos i) k' (view i (M.pos i)) c (M.at_ i) a ev pl)
    (hv : ∀ x j, InRange x a.at_ 8 → j ≠ i → ¬ (D j).mem (M.pos j) (M.sp j) x) :
    Stop m frame snip spoils (threadBlind D i) (g i) M (M.put i k' (M.at_ i)) (view i (M.pos i)) c (M.at_ i) a ev pl where
  trace := h.trace
  code := h.code
  clear := h.clear
  visible x hx := by
    rintro (h1 | ⟨j, hj, h1⟩)
    · exact h.visible x hx h1
    · exact hv x j hx hj h1
  mem x hx := by
    show ((M.put i k' (M.at_ i)).blind D i).mem ((M.put i k' (M.at_ i)).pos i) _ x
    rw [blind_put, put_pos]
    rcases hx with (h1 | h1) | h1
    · exact .inl (h.mem x (.inl h1))
    · exact .inr h1
    · exact .inl (h.mem x (.inr h1))
  regs r hr := by
    show (D i).regs ((M.put i k' (M.at_ i)).pos i) r
    rw [put_pos]; exact h.regs r hr
  flags hf := by
    show (D i).flags ((M.put i k' (M.at_ i)).pos i)
    rw [put_pos]; exact h.flags hf
  unused := h.unused

/-- Each thread is as in `Verif.RefinePlan`. -/
theorem Guest.TeamFollows.thread (hP : P.TeamFollows m frame snip spoils D view loose g M0)
    (hR : P.TeamRespects D g (stackOf g view) M0) (i : ι) :
    (threadGuest P i).Follows m frame snip spoils (threadBlind D i) (fun M => view i (M.pos i)) loose (g i) M0
      (M0.at_ i) where
  begins := hP.begins i
  moves tr M s l M' s' hrun hs := by
    obtain ⟨rfl, tr', hc⟩ := thread_run hrun
    obtain ⟨_, rfl, h⟩ := hs
    rcases h with ⟨l, k', s1, _, h, rfl⟩ | ⟨j, l, k', s1, hj, _, h, rfl⟩
    · rw [put_pos, put_at]
      exact hP.moves _ _ _ _ _ _ hc h
    · rw [put_pos_ne _ (Ne.symm hj), put_at_ne _ (Ne.symm hj)]
      refine .work fun x hx => ?_
      cases h with
      | own h =>
        have := (hR.spares _ _ _ _ _ _ _ hc (Near.rfl' _ _ _ _) h).2.2.1
        exact read64_eq _ _ _ fun y hy => this i y (Ne.symm hj) (.inr (.inl ⟨x, hx, hy⟩))
      | pass => rfl
  sites tr M s c M' hrun hs := by
    obtain ⟨rfl, tr', hc⟩ := thread_run hrun
    obtain ⟨k', h1, rfl⟩ := thread_site hs
    obtain ⟨a, as, ev, pl, e1, e2, hS, hv⟩ := hP.sites _ _ _ _ _ hc h1
    exact ⟨a, as, ev, pl, e1, by rw [put_pos]; exact e2, hS.joint hv⟩
  frame M r := hP.frame i (M.pos i) r

theorem announced_team {i : ι} {l : List W} {M : Squad ι κ} {s : State}
    (h : Announced (threadGuest P i) m (fun M => view i (M.pos i)) M0 (M0.at_ i) l M s) :
    s = M.at_ i ∧ TeamAnnounced P m view M0 i l M := by
  induction h with
  | start => exact ⟨rfl, .start⟩
  | own _ hs ih =>
    obtain ⟨rfl, ih⟩ := ih
    obtain ⟨_, rfl, h⟩ := hs
    refine ⟨rfl, ?_⟩
    rcases h with ⟨l, k', s1, _, h, rfl⟩ | ⟨j, l, k', s1, hj, _, h, rfl⟩
    · exact .own ih h
    · exact .other ih hj h
  | push _ hs e1 e2 hn ih =>
    obtain ⟨rfl, ih⟩ := ih
    obtain ⟨k', h1, rfl⟩ := thread_site hs
    rw [put_pos] at e2
    exact ⟨(put_at _ _ _ _).symm, .push ih h1 e1 e2 hn⟩
  | check _ hs e1 e2 hn hf ih =>
    obtain ⟨rfl, ih⟩ := ih
    obtain ⟨k', h1, rfl⟩ := thread_site hs
    rw [put_pos] at e2
    exact ⟨(put_at _ _ _ _).symm, .check ih h1 e1 e2 hn hf⟩
  | frame _ hs e1 hn ih =>
    obtain ⟨rfl, ih⟩ := ih
    obtain ⟨k', h1, rfl⟩ := thread_site hs
    exact ⟨(put_at _ _ _ _).symm, .frame ih h1 e1 hn⟩

/-- The books can be kept. -/
theorem InOrder.team (hO : InOrder m loose)
    (hsnip : ∀ f t ev pl c s R, m.trace f (t ++ [ev]) → snip f ev pl c s R →
      SnipFitsIn (m.inReg f) (frame f) (spoils f ev pl) pl.width c s R ev)
    (hP : P.TeamFollows m frame snip spoils D view loose g M0) (hR : P.TeamRespects D g (stackOf g view) M0)
    (hroom : ∀ tr M i b c k', SquadRun P M0 tr M → P.site (M.pos i) = some (c, k') →
      GInv m loose b (view i (M.pos i)) (M.at_ i) → TeamAnnounced P m view M0 i b.pend M →
      32 + 8 * b.pend.length + 8 ≤ regionSize) :
    P.TeamAccounts D g (stackOf g view) M0 fun i b M => GInv m loose b (view i (M.pos i)) (M.at_ i) ∧
      Announced (threadGuest P i) m (fun M => view i (M.pos i)) M0 (M0.at_ i) b.pend M (M.at_ i) where
  start i := ⟨GInv.start (view := fun M : Squad ι κ => view i (M.pos i)) (hP.thread hR i), .start⟩
  own tr M i b l k' s' hrun h hs := by
    obtain ⟨tr', ht⟩ := run_thread (i := i) hrun
    have hF := hP.thread hR i
    have hst : (threadGuest P i).step M (M.at_ i) [(i, l)] (M.put i k' s') ((M.put i k' s').at_ i) :=
      ⟨rfl, rfl, .inl ⟨_, _, _, rfl, hs, rfl⟩⟩
    have hfr := (hR.spares _ _ _ _ _ _ _ hrun (Near.rfl' _ _ _ _) hs).2.2.2.2
    refine ⟨h.1.move hO (hF.moves _ _ _ _ _ _ ht hst) ?_, .own h.2 hst⟩
    have e := leafy_iff hF (k := M)
    have e' := leafy_iff hF (k := M.put i k' s')
    simp only [threadBlind] at e e'
    rw [e, e', put_pos, hfr]
  other tr M i j b ls k' s' hrun h hj hs := by
    obtain ⟨tr', ht⟩ := run_thread (i := j) hrun
    have hF := hP.thread hR j
    have hst : (threadGuest P j).step M (M.at_ j) (ls.map (Prod.mk i)) (M.put i k' s') ((M.put i k' s').at_ j) :=
      ⟨rfl, rfl, .inr ⟨_, _, _, _, Ne.symm hj, rfl, hs, rfl⟩⟩
    refine ⟨h.1.move hO (hF.moves _ _ _ _ _ _ ht hst) ?_, .own h.2 hst⟩
    rw [put_pos_ne _ hj]
  pass tr M i b c k' hrun h hx := by
    obtain ⟨a, as, ev, pl, e1, e2, hS, hv⟩ := hP.sites _ _ _ _ _ hrun hx
    have hs : (threadGuest P i).site M = some (c, M.put i k' (M.at_ i)) := by simp [threadGuest, hx]
    have hpos : (M.put i k' (M.at_ i)).pos i = k' := put_pos _ _ _ _
    obtain ⟨x, b', h1, h2, h3, h4, h5, h6⟩ := GInv.pass hO hsnip (hP.thread hR i) e1
      (by rw [hpos]; exact e2) (hS.joint hv) hs h.1 h.2
      (hroom _ _ _ _ _ _ hrun hx h.1 (announced_team h.2).2)
    have hview : ∀ y, InRange y a.at_ 8 → stackOf g view i k' (M.sp i) y := fun y hy =>
      .inr (.inl ⟨{ a with done := a.done ++ [ev] }, by rw [e2]; exact List.mem_cons_self, hy⟩)
    refine ⟨x, b', h1, ⟨h2.emitted, h2.apart, h2.visible, fun y hy => ?_, fun r hr => ?_, fun hf => ?_, ?_⟩, h3,
      by rw [put_at]; exact h4, fun y hy => hview y (h5 ▸ hy), fun y hy => ?_⟩
    · have := h2.mem y hy
      simp only [threadBlind, blind_put, put_pos] at this
      exact this
    · have := h2.regs r hr
      simp only [threadBlind, put_pos] at this
      exact this
    · have := h2.flags hf
      simp only [threadBlind, put_pos] at this
      exact this
    · have := h2.frames
      cases x <;> simp only [Site.frames, threadBlind, put_pos] at this <;> exact this
    · have hw := below_mono hy h6 (width_le pl)
      exact ⟨.inr (.inr (below_mono hw (width_le pl) (Nat.le_refl _))), hS.mem y (.inr hw)⟩

end

/-! ## Plans -/

theorem Guest.TeamFollows.frameless {P : Guest κ L} {m : ProgSem} {frame : Func → Reg}
    {snip : Func → Ev → Place → Code → State → W → Prop} {spoils : Func → Ev → Place → Reg → Prop}
    {D : ι → Blind κ} {view : ι → κ → List XAct} {loose : Prop} {g : ι → W} {M0 : Squad ι κ}
    (hP : P.TeamFollows m frame snip spoils D view loose g M0) (i : ι) : (D i).frame (M0.pos i) = none := by
  cases hf : (D i).frame (M0.pos i) with
  | none => rfl
  | some r =>
    obtain ⟨a, as, e, _, h, _⟩ := (hP.frame i (M0.pos i) r).1 hf
    rw [(hP.begins i a (by rw [e]; simp)).1] at h
    cases h

section
variable {fl : InstrFlags} {skip : List Nat} {co : CodeObj} {info : StackInfo} {R : Func → RegFacts} {T : Sums}
  {bf : Func → BFunc} {plan : Func → Plan} {B : Binary} {jf : JitFlags} {dead : Func → DeadNames}
  {frame : Func → Reg} {P : Guest κ L} {D : ι → Blind κ} {view : ι → κ → List XAct} {g : ι → W} {M0 : Squad ι κ}

/-- **C109.** A program with any number of threads, instrumented by the tool, does what the original does and
is not killed: C104 for threads which leave the stacks of each other alone. -/
theorem C109_light_partial (hB : BinaryOk B fl jf co info R bf dead frame)
    (hb : Built fl skip co info R T bf plan) (hcall : ∀ f ∈ co.funcs, NoCallAtCheck fl co (bf f))
    (hP : P.TeamFollows (semOf co info plan (inRegOf fl T) (staysOf bf)) frame
      (B.SnippetAt jf (fun f => (T f).jit (dead f)) co plan) (B.Spoils jf co dead) D view False g M0)
    (hR : P.TeamRespects D g (stackOf g view) M0) (hr : ∀ i, Recorded (g i) [] (M0.at_ i))
    (hdepth : ∀ tr M i, SquadRun P M0 tr M → 40 + 8 * (view i (M.pos i)).length ≤ regionSize) :
    P.TeamRefines D M0 := by
  refine C108_same_behaviour hR ⟨_, (built_ordered hb hcall False).team
    (fun f t ev pl c s r ht h => snippets_within hB hb hcall (And.left (b := ∃ _, _) ht) h) hP hR ?_⟩ hr hP.frameless
  intro tr M i b c k' hrun _ hi _
  have := amid_length id hi.pend
  rw [List.length_map] at this
  have := hdepth tr M i hrun
  omega

/-- **C109 with exceptions and `longjmp`**: C104 with unwinding, for threads. -/
theorem C109_unwinding_partial (hB : BinaryOk B fl jf co info R bf dead frame)
    (hb : Built fl skip co info R T bf plan) (hcall : ∀ f ∈ co.funcs, NoCallAtCheck fl co (bf f))
    (hh : ∀ f ∈ co.funcs, HandlersOk co (bf f) f)
    (hn : ∀ f ∈ co.funcs, inRegOf fl T f → ∀ b ∈ co.blocks f, ∀ e ∈ co.targets b, e.type ≠ .catch)
    (hP : P.TeamFollows (semOn Flow co plan info (inRegOf fl T) (staysOf bf)) frame
      (B.SnippetAt jf (fun f => (T f).jit (dead f)) co plan) (B.Spoils jf co dead) D view True g M0)
    (hR : P.TeamRespects D g (stackOf g view) M0) (hr : ∀ i, Recorded (g i) [] (M0.at_ i))
    (hroom : ∀ i l M, TeamAnnounced P (semOn Flow co plan info (inRegOf fl T) (staysOf bf)) view M0 i l M →
      40 + 8 * l.length ≤ regionSize) :
    P.TeamRefines D M0 := by
  refine C108_same_behaviour hR ⟨_, (built_ordered_handlers hb hcall hh hn).team
    (fun f t ev pl c s r ht h => snippets_within hB hb hcall (And.left (b := ∃ _, _) ht) h) hP hR ?_⟩ hr hP.frameless
  intro tr M i b c k' _ _ _ ht
  have := hroom _ _ _ ht
  omega

/-- **C109 for full mode**: C105 for threads. -/
theorem C109_full_partial (hB : FullBinaryOk B jf co) (hb : BuiltFull fl skip co bf plan)
    (hP : P.TeamFollows (semOf co info plan (fun _ => False) (staysOf bf)) frame (B.FullSnippetAt jf co plan)
      (fun _ _ _ _ => False) D view False g M0)
    (hR : P.TeamRespects D g (stackOf g view) M0) (hr : ∀ i, Recorded (g i) [] (M0.at_ i))
    (hdepth : ∀ tr M i, SquadRun P M0 tr M → 40 + 8 * (view i (M.pos i)).length ≤ regionSize) :
    P.TeamRefines D M0 := by
  refine C108_same_behaviour hR ⟨_, (full_ordered hb False fun f hf b hx _ => (hb.func f hf).exits b hx).team
    (fun f t ev pl c s r ht h => full_within hB hb (And.left (b := ∃ _, _) ht) h) hP hR ?_⟩ hr hP.frameless
  intro tr M i b c k' hrun _ hi _
  have := amid_length id hi.pend
  rw [List.length_map] at this
  have := hdepth tr M i hrun
  omega

/-- **C109 for full mode, with exceptions and `longjmp`.** -/
theorem C109_full_unwinding_partial (hB : FullBinaryOk B jf co) (hb : BuiltFull fl skip co bf plan)
    (hh : ∀ f ∈ co.funcs, HandlersOk co (bf f) f)
    (hP : P.TeamFollows (semOn Flow co plan info (fun _ => False) (staysOf bf)) frame (B.FullSnippetAt jf co plan)
      (fun _ _ _ _ => False) D view True g M0)
    (hR : P.TeamRespects D g (stackOf g view) M0) (hr : ∀ i, Recorded (g i) [] (M0.at_ i))
    (hroom : ∀ i l M, TeamAnnounced P (semOn Flow co plan info (fun _ => False) (staysOf bf)) view M0 i l M →
      40 + 8 * l.length ≤ regionSize) :
    P.TeamRefines D M0 := by
  refine C108_same_behaviour hR ⟨_, (full_ordered hb True fun f hf => (hh f hf).exits).team
    (fun f t ev pl c s r ht h => full_within hB hb (And.left (b := ∃ _, _) ht) h) hP hR ?_⟩ hr hP.frameless
  intro tr M i b c k' _ _ _ ht
  have := hroom _ _ _ ht
  omega

end

/-! ## Live variables -/

section
variable {code : κ → Option (Action κ L)} {site : κ → Option (Code × κ)} {D : ι → Blind κ} {g : ι → W}
  {keep : ι → κ → W → W → Prop} {M0 : Squad ι κ}

theorem TeamLoses.both (hf : ∀ k o, code k = some o → o.Fair) (hL : TeamLoses code site D g keep M0)
    {tr : List (ι × L)} {M : Squad ι κ} {i : ι} {t : State} {o : Action κ L}
    (hr : SquadRun (guestOf code site) M0 tr M) (hk : code (M.pos i) = some o)
    (hst : (M.blind D i).Same (M.pos i) (M.at_ i) t) : (∀ a, o.stores t a ↔ o.stores (M.at_ i) a) ∧
    ∀ l, SameResult (fun r => (D i).hides (M.pos i) r ∧ ¬ o.sets r) ((D i).flags (M.pos i) ∧ ¬ o.setsFlags)
      (fun a => (M.blind D i).mem (M.pos i) (M.sp i) a ∧ ¬ o.stores (M.at_ i) a) (o.run (M.at_ i) l) (o.run t l) := by
  obtain ⟨h1, h2, h3⟩ := hL.reads tr M i o hr hk
  refine (hf _ o hk).dep _ _ _ _ t hst (fun r h => ?_) h2 fun a ha => ?_
  · rcases h with h | h
    · exact h1 r h
    · exact ((hL.spares tr M i o hr hk).1 r h).1
  · rintro (h | ⟨j, _, h⟩)
    · exact h3 a ha i h
    · exact h3 a ha j h

theorem TeamLoses.next (hL : TeamLoses code site D g keep M0) {tr : List (ι × L)} {M : Squad ι κ} {i : ι} {k' : κ}
    {s' t' : State} {o : Action κ L} {l : L} (hr : SquadRun (guestOf code site) M0 tr M)
    (hk : code (M.pos i) = some o) (hs : o.run (M.at_ i) l = some (k', s'))
    (h : Near (fun r => (D i).hides (M.pos i) r ∧ ¬ o.sets r) ((D i).flags (M.pos i) ∧ ¬ o.setsFlags)
      (fun a => (M.blind D i).mem (M.pos i) (M.sp i) a ∧ ¬ o.stores (M.at_ i) a) s' t') :
    (M.blind D i).Same k' s' t' := by
  obtain ⟨h1, h2, h3, h4⟩ := hL.goes tr M i o l k' s' hr hk hs
  refine ⟨fun r hr' => h.regs r fun hh => hr' ?_, fun hF => h.flags fun hh => hF (h2 hh.1 hh.2), h.gs,
    fun a ha => h.mem a fun hh => ha ?_⟩
  · rcases hh with ⟨hh | hh, hn⟩
    · exact .inl (h1 r hh hn)
    · exact .inr (h4.trans hh)
  · rcases hh with ⟨hh | hh, hn⟩
    · exact .inl (h3 a hh hn)
    · exact .inr hh

/-- **C110.** Threads made of instructions which do what they declare cannot see the snippets, if what these
destroy is not live. -/
theorem C110_respects (hf : ∀ k o, code k = some o → o.Fair) (hL : TeamLoses code site D g keep M0) :
    (guestOf code site).TeamRespects D g keep M0 where
  rsp := hL.rsp
  region := hL.region
  apart := hL.apart
  spares tr M i t l k' t' hr hst h := by
    obtain ⟨o, hk, ht⟩ := h
    obtain ⟨h1, h2⟩ := hL.both hf hr hk hst
    obtain ⟨h3, h4, h5⟩ := hL.spares tr M i o hr hk
    obtain ⟨k1, k2, k3⟩ := (hf _ o hk).keep t l k' t' ht
    refine ⟨k1, fun x hx => k3 x fun hs => h4 x ((h1 x).1 hs) hx,
      fun j x hj hx => k3 x fun hs => h5 x j hj ((h1 x).1 hs) hx, fun r hr' => k2 r (h3 r hr').2, ?_⟩
    have := h2 l
    rw [ht] at this
    cases hs : o.run (M.at_ i) l with
    | none => rw [hs] at this; exact this.elim
    | some p =>
      obtain ⟨k1, s'⟩ := p
      rw [hs] at this
      obtain ⟨rfl, _⟩ := this
      exact (hL.goes tr M i o l _ s' hr hk hs).2.2.2
  forth tr M i t l k' s' hr hst h := by
    obtain ⟨o, hk, hs⟩ := h
    have := (hL.both hf hr hk hst).2 l
    rw [hs] at this
    cases ht : o.run t l with
    | none => rw [ht] at this; exact this.elim
    | some p =>
      obtain ⟨k1, t'⟩ := p
      rw [ht] at this
      obtain ⟨rfl, hn⟩ := this
      exact ⟨t', ⟨o, hk, ht⟩, hL.next hr hk hs hn⟩
  back tr M i t l k' t' hr hst h := by
    obtain ⟨o, hk, ht⟩ := h
    have := (hL.both hf hr hk hst).2 l
    rw [ht] at this
    cases hs : o.run (M.at_ i) l with
    | none => rw [hs] at this; exact this.elim
    | some p =>
      obtain ⟨k1, s'⟩ := p
      rw [hs] at this
      obtain ⟨rfl, hn⟩ := this
      exact ⟨s', ⟨o, hk, hs⟩, hL.next hr hk hs hn⟩

end

section
variable {fl : InstrFlags} {skip : List Nat} {co : CodeObj} {info : StackInfo} {R : Func → RegFacts} {T : Sums}
  {bf : Func → BFunc} {plan : Func → Plan} {B : Binary} {jf : JitFlags} {dead : Func → DeadNames}
  {frame : Func → Reg} {code : κ → Option (Action κ L)} {site : κ → Option (Code × κ)} {D : ι → Blind κ}
  {view : ι → κ → List XAct} {g : ι → W} {M0 : Squad ι κ}

/-- **C110 for light mode**: C109 with the equations of live variables. -/
theorem C110_light_partial (hB : BinaryOk B fl jf co info R bf dead frame)
    (hb : Built fl skip co info R T bf plan) (hcall : ∀ f ∈ co.funcs, NoCallAtCheck fl co (bf f))
    (hf : ∀ k o, code k = some o → o.Fair)
    (hP : (guestOf code site).TeamFollows (semOf co info plan (inRegOf fl T) (staysOf bf)) frame
      (B.SnippetAt jf (fun f => (T f).jit (dead f)) co plan) (B.Spoils jf co dead) D view False g M0)
    (hL : TeamLoses code site D g (stackOf g view) M0) (hr : ∀ i, Recorded (g i) [] (M0.at_ i))
    (hdepth : ∀ tr M i, SquadRun (guestOf code site) M0 tr M → 40 + 8 * (view i (M.pos i)).length ≤ regionSize) :
    (guestOf code site).TeamRefines D M0 :=
  C109_light_partial hB hb hcall hP (C110_respects hf hL) hr hdepth

/-- **C110 for full mode.** -/
theorem C110_full_partial (hB : FullBinaryOk B jf co) (hb : BuiltFull fl skip co bf plan)
    (hf : ∀ k o, code k = some o → o.Fair)
    (hP : (guestOf code site).TeamFollows (semOf co info plan (fun _ => False) (staysOf bf)) frame
      (B.FullSnippetAt jf co plan) (fun _ _ _ _ => False) D view False g M0)
    (hL : TeamLoses code site D g (stackOf g view) M0) (hr : ∀ i, Recorded (g i) [] (M0.at_ i))
    (hdepth : ∀ tr M i, SquadRun (guestOf code site) M0 tr M → 40 + 8 * (view i (M.pos i)).length ≤ regionSize) :
    (guestOf code site).TeamRefines D M0 :=
  C109_full_partial hB hb hP (C110_respects hf hL) hr hdepth

end

end Verif
