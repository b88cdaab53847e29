import Verif.Futures
import Verif.Props.ImageCoresTool

/-! # C126: at every moment, the program in memory may do what the original may, and nothing else -/

namespace Verif

variable {ι κ L : Type} [DecidableEq ι] {P : CoreGuest κ L} {D : ι → Blind κ} {g : ι → W} {A : ι → W → Prop}
  {Q : ι → Book → Cores ι κ → Prop} {M0 M M' : Cores ι κ} {N N' : Cores ι (Stand κ)}

/-! ## Executions one after the other -/

theorem CoreRun.trans {tr tr' : List (ι × L)} (h : CoreRun P M0 tr M) (h' : CoreRun P M tr' M') :
    CoreRun P M0 (tr ++ tr') M' := by
  induction h' with
  | start => simpa using h
  | move _ hs ih => rw [← List.append_assoc]; exact ih.move hs
  | pass _ hx ih => exact ih.pass hx

theorem ArmedFrom.trans {tr tr' : List (ι × L)} {c : Option (Cores ι (Stand κ))} (h : ArmedFrom P N tr (some N'))
    (h' : ArmedFrom P N' tr' c) : ArmedFrom P N (tr ++ tr') c := by
  induction h' with
  | start => simpa using h
  | step _ hs ih => rw [← List.append_assoc]; exact ih.step hs

theorem OnlyCore.later {i : ι} (h : OnlyCore P i N N') : ArmedFrom P N [] (some N') := by
  induction h with
  | refl => exact .start
  | step hs _ _ ih => exact (ArmedFrom.start.step hs).trans ih

theorem ArmedCores.later {tr : List (ι × L)} {c : Option (Cores ι (Stand κ))} (h : ArmedCores P M0 tr c) :
    ArmedFrom P M0.arm tr c := by
  induction h with
  | start => exact .start
  | step _ hs ih => exact ih.step hs

/-! ## Buffers -/

theorem CoreSim.empty_left (hP : P.Respects D g A M0) (hH : P.Accounts D g A M0 Q) {tr : List (ι × L)} {i : ι} :
    ∀ (bs : List (W × Byte)) {M : Cores ι κ}, M.buf i = bs → CoreRun P M0 tr M → CoreSim D g A Q M N →
    ∃ M', CoreRun P M [] M' ∧ CoreSim D g A Q M' N ∧ M'.pos = M.pos ∧
      (M'.buf i = [] ∨ ∃ w ws, M'.buf i = w :: ws ∧ ∀ i, ¬ A i w.1)
  | [], M, hb, _, h => ⟨M, .start, h, rfl, .inl hb⟩
  | w :: ws, M, hb, hrun, h => by
    by_cases hw : ∀ i, ¬ A i w.1
    · exact ⟨M, .start, h, rfl, .inr ⟨w, ws, hb, hw⟩⟩
    · have hr := hrun.move (.drain hb)
      rw [nil_run] at hr
      obtain ⟨M', k1, k2, k3, k5⟩ := empty_left hP hH ws (i := i) (M := M.drain i w ws) (by simp [Cores.drain]) hr
        (h.drain_left hP hH hrun hb hw)
      exact ⟨M', ((CoreRun.start (P := P)).move (.drain hb)).trans k1, k2, k3, k5⟩

theorem CoreSim.empty_right (hP : P.Respects D g A M0) {i : ι} :
    ∀ (bs : List (W × Byte)) {N : Cores ι (Stand κ)}, N.buf i = bs → CoreSim D g A Q M N →
    ∃ N', ArmedFrom P N [] (some N') ∧ CoreSim D g A Q M N' ∧ N'.pos = N.pos ∧
      (N'.buf i = [] ∨ ∃ w ws, N'.buf i = w :: ws ∧ ∀ i, ¬ A i w.1)
  | [], N, hb, h => ⟨N, .start, h, rfl, .inl hb⟩
  | w :: ws, N, hb, h => by
    by_cases hw : ∀ i, ¬ A i w.1
    · exact ⟨N, .start, h, rfl, .inr ⟨w, ws, hb, hw⟩⟩
    · obtain ⟨N', k1, k2, k3, k5⟩ := empty_right hP ws (i := i) (N := N.drain i w ws) (by simp [Cores.drain])
        (h.drain_right hP hb hw)
      exact ⟨N', ((ArmedFrom.start (P := P)).step (.drain hb)).trans k1, k2, k3, k5⟩

/-! ## One step -/

omit [DecidableEq ι] in
theorem CoreSim.point (h : CoreSim D g A Q M N) (i : ι) : (N.pos i).point = M.pos i := by
  obtain ⟨_, _, hg⟩ := h.thr i
  exact hg.point

theorem CoreSim.forth_move (hP : P.Respects D g A M0) (hH : P.Accounts D g A M0 Q) {tr : List (ι × L)} (hrun : CoreRun P M0 tr M)
    (h : CoreSim D g A Q M N) {i : ι} {ls : List L} (hs : CoreMove P M i ls M') :
    ∃ N', ArmedFrom P N (ls.map (Prod.mk i)) (some N') ∧ CoreSim D g A Q M' N' := by
  obtain ⟨N1, j1, hsim, hpos, _⟩ := h.done hP i
  rw [h.point i] at hpos
  have j1 := j1.later
  cases hs with
  | own hl hs =>
    obtain ⟨_, b, _, hsm⟩ := hsim.sim hpos
    obtain ⟨ws', c', ht, hw, hnr⟩ := hP.forth _ _ _ _ _ _ _ _ hrun hsm.same hs
    exact ⟨_, j1.step (.own hpos hl ht), hsim.owned hP hH hrun hpos hs ht hw hnr (.inl ⟨hl, rfl, rfl⟩)⟩
  | locked hl hb hs =>
    obtain ⟨N2, k1, k2, k3, k5⟩ := hsim.empty_right hP (i := i) _ rfl
    have hpos2 : N2.pos i = .own (M.pos i) := by rw [k3]; exact hpos
    have hb2 : N2.buf i = [] := by
      rcases k5 with k5 | ⟨w, ws, k5, k6⟩
      · exact k5
      · have := k2.bufs i
        rw [k5, hb, shared_cons_pub k6] at this
        cases this
    obtain ⟨_, b, _, hsm⟩ := k2.sim hpos2
    obtain ⟨ws', c', ht, hw, hnr⟩ := hP.forth _ _ _ _ _ _ _ _ hrun hsm.same hs
    exact ⟨_, (j1.trans k1).step (.locked hpos2 hl hb2 ht),
      k2.owned hP hH hrun hpos2 hs ht hw hnr (.inr ⟨hl, hb, hb2, rfl, rfl⟩)⟩
  | @drain w ws hb =>
    by_cases hw : ∀ i, ¬ A i w.1
    · obtain ⟨N2, k1, k2, k3, k5⟩ := hsim.empty_right hP (i := i) _ rfl
      rcases k5 with k5 | ⟨u, us, k5, k6⟩
      · have := k2.bufs i
        rw [k5, hb, shared_cons_pub hw] at this
        cases this
      · have e := k2.bufs i
        rw [k5, hb] at e
        obtain rfl := shared_first k6 hw e
        exact ⟨_, (j1.trans k1).step (.drain k5), k2.drain_both hP hH hrun hb k5 hw⟩
    · exact ⟨N1, j1, hsim.drain_left hP hH hrun hb hw⟩

theorem CoreSim.forth_pass (hP : P.Respects D g A M0) (hH : P.Accounts D g A M0 Q) {tr : List (ι × L)} (hrun : CoreRun P M0 tr M)
    (h : CoreSim D g A Q M N) {i : ι} {c : Code} {k' : κ} (hx : P.site (M.pos i) = some (c, k')) :
    ∃ N', ArmedFrom P N [] (some N') ∧ CoreSim D g A Q (M.put i k' (M.cpu i) []) N' := by
  obtain ⟨N1, j1, hsim, hpos, _⟩ := h.done hP i
  rw [h.point i] at hpos
  exact ⟨_, j1.later.step (.enter hpos hx), hsim.entered hP hH hrun hpos hx⟩

theorem CoreSim.back_move (hP : P.Respects D g A M0) (hH : P.Accounts D g A M0 Q) {tr : List (ι × L)} (hrun : CoreRun P M0 tr M)
    (hsim : CoreSim D g A Q M N) {i : ι} {ls : List L} {c : Option (Cores ι (Stand κ))} (hs : ArmedMove P N i ls c) :
    ∃ M' N', c = some N' ∧ CoreRun P M (ls.map (Prod.mk i)) M' ∧ CoreSim D g A Q M' N' := by
  cases hs with
  | own hk hl ht =>
    obtain ⟨rfl, b, _, hsm⟩ := hsim.sim hk
    obtain ⟨ws, c, hs, hw, hnr⟩ := hP.back _ _ _ _ _ _ _ _ hrun hsm.same ht
    exact ⟨_, _, rfl, CoreRun.start.move (.own hl hs), hsim.owned hP hH hrun hk hs ht hw hnr (.inl ⟨hl, rfl, rfl⟩)⟩
  | locked hk hl hb ht =>
    obtain ⟨M1, k1, k2, k3, k5⟩ := hsim.empty_left hP hH (i := i) _ rfl hrun
    have hb1 : M1.buf i = [] := by
      rcases k5 with k5 | ⟨w, ws, k5, k6⟩
      · exact k5
      · have := k2.bufs i
        rw [k5, hb, shared_cons_pub k6] at this
        cases this
    obtain ⟨rfl, b, _, hsm⟩ := k2.sim hk
    have hrun1 := hrun.trans k1
    obtain ⟨ws, c, hs, hw, hnr⟩ := hP.back _ _ _ _ _ _ _ _ hrun1 hsm.same ht
    exact ⟨_, _, rfl, k1.move (.locked hl hb1 hs), k2.owned hP hH hrun1 hk hs ht hw hnr (.inr ⟨hl, hb1, hb, rfl, rfl⟩)⟩
  | enter hk hx =>
    obtain ⟨rfl, _⟩ := hsim.sim hk
    exact ⟨_, _, rfl, CoreRun.start.pass hx, hsim.entered hP hH hrun hk hx⟩
  | instr hk hgo hws hst => exact ⟨M, _, rfl, .start, hsim.instr hP hk hgo hws hst⟩
  | leave hk => exact ⟨M, _, rfl, .start, hsim.leave hP hk⟩
  | trap hk hx => exact (hsim.no_trap hk hx).elim
  | @drain w ws hb =>
    by_cases hw : ∀ i, ¬ A i w.1
    · obtain ⟨M1, k1, k2, k3, k5⟩ := hsim.empty_left hP hH (i := i) _ rfl hrun
      rcases k5 with k5 | ⟨u, us, k5, k6⟩
      · have := k2.bufs i
        rw [k5, hb, shared_cons_pub hw] at this
        cases this
      · have e := k2.bufs i
        rw [k5, hb] at e
        obtain rfl := shared_first hw k6 e
        exact ⟨_, _, rfl, k1.move (.drain k5), k2.drain_both hP hH (hrun.trans k1) k5 hb hw⟩
    · exact ⟨M, _, rfl, .start, hsim.drain_right hP hb hw⟩

/-! ## Lists of instructions -/

/-- Moments which correspond. -/
def Met (P : CoreGuest κ L) (D : ι → Blind κ) (g : ι → W) (A : ι → W → Prop) (Q : ι → Book → Cores ι κ → Prop) (M0 : Cores ι κ)
    (M : Cores ι κ) (N : Cores ι (Stand κ)) : Prop := (∃ tr, CoreRun P M0 tr M) ∧ CoreSim D g A Q M N

theorem Met.bisim (hP : P.Respects D g A M0) (hH : P.Accounts D g A M0 Q) : CoreBisim P D A (Met P D g A Q M0) := by
  refine ⟨fun M N h => h.2.mem, fun M N h i => ⟨h.2.point i, fun k hk => ?_⟩, fun M N tr M' h hrun => ?_, fun M N tr c h hrun => ?_⟩
  · obtain ⟨_, _, _, hsm⟩ := h.2.sim hk
    exact hsm.same
  · obtain ⟨⟨tr0, h0⟩, hsim⟩ := h
    induction hrun with
    | start => exact ⟨N, .start, ⟨tr0, h0⟩, hsim⟩
    | move h1 hs ih =>
      obtain ⟨N1, k1, ⟨tr1, k2⟩, k3⟩ := ih
      obtain ⟨N2, k4, k5⟩ := k3.forth_move hP hH k2 hs
      exact ⟨N2, k1.trans k4, ⟨_, k2.move hs⟩, k5⟩
    | pass h1 hx ih =>
      obtain ⟨N1, k1, ⟨tr1, k2⟩, k3⟩ := ih
      obtain ⟨N2, k4, k5⟩ := k3.forth_pass hP hH k2 hx
      exact ⟨N2, by simpa using k1.trans k4, ⟨_, k2.pass hx⟩, k5⟩
  · obtain ⟨⟨tr0, h0⟩, hsim⟩ := h
    induction hrun with
    | start => exact ⟨M, N, rfl, .start, ⟨tr0, h0⟩, hsim⟩
    | step h1 hs ih =>
      obtain ⟨M1, N1, e, k1, ⟨tr1, k2⟩, k3⟩ := ih
      cases e
      obtain ⟨M2, N2, e, k4, k5⟩ := k3.back_move hP hH k2 hs
      exact ⟨M2, N2, e, k1.trans k4, ⟨_, k2.trans k4⟩, k5⟩

/-- **C126, lists of instructions.** -/
theorem C126_lists (hP : P.Respects D g A M0) (hH : P.Honest D g A M0) (hr : ∀ i, Recorded (g i) [] (M0.at_ i))
    (hf : ∀ i, (D i).frame (M0.pos i) = none) : ∃ R, CoreBisim P D A R ∧ R M0 M0.arm := by
  obtain ⟨Q, hH⟩ := hH
  exact ⟨_, Met.bisim hP hH, ⟨_, .start⟩, CoreSim.start hP hH hr hf⟩

/-! ## Bytes -/

variable {I : Image κ}

theorem CoreRel.later (hI : I.Of P.sites) {B : Cores ι (Footing κ)} (h : CoreRel I P B N) {tr : List (ι × L)}
    {c : Option (Cores ι (Stand κ))} (hr : ArmedFrom P N tr c) :
    ∀ N', c = some N' → ∃ B', ByteFrom P I B tr (some B') ∧ CoreRel I P B' N' := by
  induction hr with
  | start => intro N' e; cases e; exact ⟨B, .start, h⟩
  | step _ hs ih =>
    intro N' e
    subst e
    obtain ⟨B1, h1, h2⟩ := ih _ rfl
    rcases h2.forward hI hs with ⟨rfl, h3⟩ | ⟨B2, h3, h5⟩
    · exact ⟨B1, by rw [List.map_nil, List.append_nil]; exact h1, h3⟩
    · exact ⟨B2, h1.step h3, h5⟩

/-- **C126, bytes for lists.** -/
theorem CoreBisim.bytes (hI : I.Of P.sites) {R : Cores ι κ → Cores ι (Stand κ) → Prop} (h : CoreBisim P D A R) :
    ByteBisim P I D A fun M B => ∃ N, CoreRel I P B N ∧ R M N := by
  refine ⟨?_, ?_, ?_, ?_⟩
  · rintro M B ⟨N, h1, h2⟩ x hx
    rw [h1.mem]
    exact h.mem M N h2 x hx
  · rintro M B ⟨N, h1, h2⟩ i
    refine ⟨(h1.foot i).point.trans (h.same M N h2 i).1, fun k e => ?_⟩
    rw [h1.at_eq]
    exact (h.same M N h2 i).2 k ((h1.abreast.own i k).1 e)
  · rintro M B tr M' ⟨N, h1, h2⟩ hr
    obtain ⟨N', h3, h4⟩ := h.forth M N tr M' h2 hr
    obtain ⟨B', h5, h6⟩ := h1.later hI h3 N' rfl
    exact ⟨B', h5, N', h6, h4⟩
  · rintro M B tr c ⟨N, h1, h2⟩ hr
    induction hr with
    | start => exact ⟨M, B, rfl, .start, N, h1, h2⟩
    | @step tr B1 i ls c _ hs ih =>
      obtain ⟨M1, B2, e, k1, N1, k2, k3⟩ := ih
      cases e
      obtain ⟨N2, k4, k5⟩ := k2.backward hI hs
      rcases k5 with ⟨N3, B3, k6, rfl, k7⟩ | ⟨k6, _⟩
      · obtain ⟨M2, N4, e, k8, k9⟩ := h.back M1 N1 _ _ k3 (k4.later.step k6)
        cases e
        exact ⟨M2, B3, rfl, k1.trans k8, N3, k7, k9⟩
      · obtain ⟨_, _, e, _⟩ := h.back M1 N1 _ _ k3 (k4.later.step k6)
        cases e

/-- **C126.** At every moment the program in memory may do what the original may, and nothing else, on processors with store
buffers, under the conditions of C123. -/
theorem C126_bisimilar (hI : I.Of P.sites) (hP : P.Respects D g A M0) (hH : P.Honest D g A M0)
    (hr : ∀ i, Recorded (g i) [] (M0.at_ i)) (hf : ∀ i, (D i).frame (M0.pos i) = none) : I.Bisimilar P D A M0 := by
  obtain ⟨R, h1, h2⟩ := C126_lists hP hH hr hf
  exact ⟨_, h1.bytes hI, _, .start, h2⟩

theorem ByteCores.later {tr : List (ι × L)} {c : Option (Cores ι (Footing κ))} (h : ByteCores P I M0 tr c) :
    ByteFrom P I M0.load tr c := by
  induction h with
  | start => exact .start
  | step _ hs ih => exact ih.step hs

theorem ByteFrom.run {tr : List (ι × L)} {c : Option (Cores ι (Footing κ))} (h : ByteFrom P I M0.load tr c) :
    ByteCores P I M0 tr c := by
  induction h with
  | start => exact .start
  | step _ hs ih => exact ih.step hs

/-- **C126, the future.** Whatever the program in memory has done, the original can have done the same in such a way that from
there on exactly the same is possible, and the other way round. -/
theorem C126_futures (h : I.Bisimilar P D A M0) (tr : List (ι × L)) :
    (∀ N, ByteCores P I M0 tr (some N) → ∃ M, CoreRun P M0 tr M ∧ ∀ tr', P.Next M tr' ↔ I.Next P N tr') ∧
    (∀ M, CoreRun P M0 tr M → ∃ N, ByteCores P I M0 tr (some N) ∧ ∀ tr', P.Next M tr' ↔ I.Next P N tr') ∧
    ¬ ByteCores P I M0 tr none := by
  obtain ⟨R, hB, h0⟩ := h
  have key : ∀ {M N}, R M N → ∀ tr', P.Next M tr' ↔ I.Next P N tr' := fun {M N} hR tr' => by
    constructor
    · rintro ⟨M', h1⟩
      obtain ⟨N', h2, _⟩ := hB.forth _ _ _ _ hR h1
      exact ⟨N', h2⟩
    · rintro ⟨N', h1⟩
      obtain ⟨M', _, _, h2, _⟩ := hB.back _ _ _ _ hR h1
      exact ⟨M', h2⟩
  refine ⟨fun N hN => ?_, fun M hM => ?_, fun hn => ?_⟩
  · obtain ⟨M, _, e, h1, h2⟩ := hB.back _ _ _ _ h0 hN.later
    cases e
    exact ⟨M, h1, key h2⟩
  · obtain ⟨N, h1, h2⟩ := hB.forth _ _ _ _ h0 hM
    exact ⟨N, h1.run, key h2⟩
  · obtain ⟨_, _, e, _⟩ := hB.back _ _ _ _ h0 hn.later
    cases e

/-! ## The binaries which the tool writes -/

section Light

variable {B : Binary} {fl : InstrFlags} {jf : JitFlags} {skip : List Nat} {co : CodeObj} {info : StackInfo}
  {R : Func → RegFacts} {T : Sums} {bf : Func → BFunc} {plan : Func → Plan} {dead : Func → DeadNames} {frame : Func → Reg}
  {view : ι → κ → List XAct}

theorem honest_light (hB : BinaryOk B fl jf co info R bf dead frame)
    (hb : Built fl skip co info R T bf plan) (hcall : ∀ f ∈ co.funcs, NoCallAtCheck fl co (bf f))
    (hP : P.Follows (semOf co info plan (inRegOf fl T) (staysOf bf)) frame
      (B.SnippetAt jf (fun f => (T f).jit (dead f)) co plan) (B.Spoils jf co dead) D view False g A M0)
    (hR : P.Respects D g A M0)
    (hdepth : ∀ tr M i, CoreRun P M0 tr M → 40 + 8 * (view i (M.pos i)).length ≤ regionSize) :
    P.Honest D g A M0 := by
  refine ⟨_, (built_ordered hb hcall False).cores
    (fun f t ev pl c s r ht h => snippets_within hB hb hcall (And.left (b := ∃ _, _) ht) h) hP hR ?_⟩
  intro tr M i b c k' hrun _ hi _
  have := amid_length id hi.pend
  rw [List.length_map] at this
  have := hdepth tr M i hrun
  omega

/-- **C126, light mode.** -/
theorem C126_light_partial (hI : I.Of P.sites) (hB : BinaryOk B fl jf co info R bf dead frame)
    (hb : Built fl skip co info R T bf plan) (hcall : ∀ f ∈ co.funcs, NoCallAtCheck fl co (bf f))
    (hP : P.Follows (semOf co info plan (inRegOf fl T) (staysOf bf)) frame
      (B.SnippetAt jf (fun f => (T f).jit (dead f)) co plan) (B.Spoils jf co dead) D view False g A M0)
    (hR : P.Respects D g A M0) (hr : ∀ i, Recorded (g i) [] (M0.at_ i))
    (hdepth : ∀ tr M i, CoreRun P M0 tr M → 40 + 8 * (view i (M.pos i)).length ≤ regionSize) :
    I.Bisimilar P D A M0 :=
  C126_bisimilar hI hR (honest_light hB hb hcall hP hR hdepth) hr hP.frameless

theorem honest_unwinding (hB : BinaryOk B fl jf co info R bf dead frame)
    (hb : Built fl skip co info R T bf plan) (hcall : ∀ f ∈ co.funcs, NoCallAtCheck fl co (bf f))
    (hh : ∀ f ∈ co.funcs, HandlersOk co (bf f) f)
    (hn : ∀ f ∈ co.funcs, inRegOf fl T f → ∀ b ∈ co.blocks f, ∀ e ∈ co.targets b, e.type ≠ .catch)
    (hP : P.Follows (semOn Flow co plan info (inRegOf fl T) (staysOf bf)) frame
      (B.SnippetAt jf (fun f => (T f).jit (dead f)) co plan) (B.Spoils jf co dead) D view True g A M0)
    (hR : P.Respects D g A M0)
    (hroom : ∀ i l M, CoreAnnounced P (semOn Flow co plan info (inRegOf fl T) (staysOf bf)) view M0 i l M →
      40 + 8 * l.length ≤ regionSize) :
    P.Honest D g A M0 := by
  refine ⟨_, (built_ordered_handlers hb hcall hh hn).cores
    (fun f t ev pl c s r ht h => snippets_within hB hb hcall (And.left (b := ∃ _, _) ht) h) hP hR ?_⟩
  intro tr M i b c k' _ _ _ ht
  have := hroom _ _ _ ht
  omega

/-- **C126, light mode, with exceptions and `longjmp`.** -/
theorem C126_unwinding_partial (hI : I.Of P.sites) (hB : BinaryOk B fl jf co info R bf dead frame)
    (hb : Built fl skip co info R T bf plan) (hcall : ∀ f ∈ co.funcs, NoCallAtCheck fl co (bf f))
    (hh : ∀ f ∈ co.funcs, HandlersOk co (bf f) f)
    (hn : ∀ f ∈ co.funcs, inRegOf fl T f → ∀ b ∈ co.blocks f, ∀ e ∈ co.targets b, e.type ≠ .catch)
    (hP : P.Follows (semOn Flow co plan info (inRegOf fl T) (staysOf bf)) frame
      (B.SnippetAt jf (fun f => (T f).jit (dead f)) co plan) (B.Spoils jf co dead) D view True g A M0)
    (hR : P.Respects D g A M0) (hr : ∀ i, Recorded (g i) [] (M0.at_ i))
    (hroom : ∀ i l M, CoreAnnounced P (semOn Flow co plan info (inRegOf fl T) (staysOf bf)) view M0 i l M →
      40 + 8 * l.length ≤ regionSize) :
    I.Bisimilar P D A M0 :=
  C126_bisimilar hI hR (honest_unwinding hB hb hcall hh hn hP hR hroom) hr hP.frameless

end Light

section Full

variable {B : Binary} {fl : InstrFlags} {jf : JitFlags} {skip : List Nat} {co : CodeObj} {info : StackInfo}
  {bf : Func → BFunc} {plan : Func → Plan} {frame : Func → Reg} {view : ι → κ → List XAct}

theorem honest_full (hB : FullBinaryOk B jf co) (hb : BuiltFull fl skip co bf plan)
    (hP : P.Follows (semOf co info plan (fun _ => False) (staysOf bf)) frame (B.FullSnippetAt jf co plan)
      (fun _ _ _ _ => False) D view False g A M0)
    (hR : P.Respects D g A M0)
    (hdepth : ∀ tr M i, CoreRun P M0 tr M → 40 + 8 * (view i (M.pos i)).length ≤ regionSize) :
    P.Honest D g A M0 := by
  refine ⟨_, (full_ordered hb False fun f hf b hx _ => (hb.func f hf).exits b hx).cores
    (fun f t ev pl c s r ht h => full_within hB hb (And.left (b := ∃ _, _) ht) h) hP hR ?_⟩
  intro tr M i b c k' hrun _ hi _
  have := amid_length id hi.pend
  rw [List.length_map] at this
  have := hdepth tr M i hrun
  omega

/-- **C126, full mode.** -/
theorem C126_full_partial (hI : I.Of P.sites) (hB : FullBinaryOk B jf co) (hb : BuiltFull fl skip co bf plan)
    (hP : P.Follows (semOf co info plan (fun _ => False) (staysOf bf)) frame (B.FullSnippetAt jf co plan)
      (fun _ _ _ _ => False) D view False g A M0)
    (hR : P.Respects D g A M0) (hr : ∀ i, Recorded (g i) [] (M0.at_ i))
    (hdepth : ∀ tr M i, CoreRun P M0 tr M → 40 + 8 * (view i (M.pos i)).length ≤ regionSize) :
    I.Bisimilar P D A M0 :=
  C126_bisimilar hI hR (honest_full hB hb hP hR hdepth) hr hP.frameless

theorem honest_full_unwinding (hB : FullBinaryOk B jf co) (hb : BuiltFull fl skip co bf plan)
    (hh : ∀ f ∈ co.funcs, HandlersOk co (bf f) f)
    (hP : P.Follows (semOn Flow co plan info (fun _ => False) (staysOf bf)) frame (B.FullSnippetAt jf co plan)
      (fun _ _ _ _ => False) D view True g A M0)
    (hR : P.Respects D g A M0)
    (hroom : ∀ i l M, CoreAnnounced P (semOn Flow co plan info (fun _ => False) (staysOf bf)) view M0 i l M →
      40 + 8 * l.length ≤ regionSize) :
    P.Honest D g A M0 := by
  refine ⟨_, (full_ordered hb True fun f hf => (hh f hf).exits).cores
    (fun f t ev pl c s r ht h => full_within hB hb (And.left (b := ∃ _, _) ht) h) hP hR ?_⟩
  intro tr M i b c k' _ _ _ ht
  have := hroom _ _ _ ht
  omega

/-- **C126, full mode, with exceptions and `longjmp`.** -/
theorem C126_full_unwinding_partial (hI : I.Of P.sites) (hB : FullBinaryOk B jf co) (hb : BuiltFull fl skip co bf plan)
    (hh : ∀ f ∈ co.funcs, HandlersOk co (bf f) f)
    (hP : P.Follows (semOn Flow co plan info (fun _ => False) (staysOf bf)) frame (B.FullSnippetAt jf co plan)
      (fun _ _ _ _ => False) D view True g A M0)
    (hR : P.Respects D g A M0) (hr : ∀ i, Recorded (g i) [] (M0.at_ i))
    (hroom : ∀ i l M, CoreAnnounced P (semOn Flow co plan info (fun _ => False) (staysOf bf)) view M0 i l M →
      40 + 8 * l.length ≤ regionSize) :
    I.Bisimilar P D A M0 :=
  C126_bisimilar hI hR (honest_full_unwinding hB hb hh hP hR hroom) hr hP.frameless

end Full

/-! ## Example -/

/-- The two threads of `C123_example`, on a processor with AVX-512 or without: whenever the one has done something and the other
has not, the same is possible from there on as in the original. -/
theorem C126_example (b : Bool → W) (avx : Bool) : ∃ I : Image Nat, I.Of noteProg.sites ∧ I.avx = avx ∧
    I.Bisimilar noteProg noteBlind pairArea (note0 b) := by
  obtain ⟨I, h1, h2⟩ := rec_image avx
  have h1 : I.Of noteProg.sites := ⟨h1.none, h1.some⟩
  exact ⟨I, h1, h2, C126_full_partial h1 Small.fullBinaryOk recProg_ok.full (note_follows b) (C123_respects note_fair (note_loses b))
    (fun i => recorded_region (pair0_recorded b i) rfl fun _ hx => note0_view b i i (.inl hx))
    fun _ M i _ => pair_depth i (M.pos i)⟩

end Verif
