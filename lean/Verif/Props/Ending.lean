import Verif.Ending
import Verif.Props.Futures

/-! # C127: snippets come to an end, whatever other threads and buffers do -/

namespace Verif

variable {ι κ L : Type} [DecidableEq ι] {P : CoreGuest κ L} {D : ι → Blind κ} {g : ι → W} {A : ι → W → Prop}
  {Q : ι → Book → Cores ι κ → Prop} {M0 M M' : Cores ι κ} {N N' : Cores ι (Stand κ)}

/-! ## Numbers of instructions -/

/-- Executions to the end, with the number of instructions; labels count. -/
inductive PathN (F : W → Prop) (w : Code) : Nat → Code → State → Prop
  | nil {s : State} : PathN F w 0 [] s
  | step {n : Nat} {i : Instr} {k k1 : Code} {s s1 : State} : Touches F i s → Go w (i :: k) s k1 s1 → PathN F w n k1 s1 →
      PathN F w (n + 1) (i :: k) s

theorem Path.count {F : W → Prop} {w r e : Code} {s s2 : State} (h : Path F w r s e s2) : e = [] → ∃ n, PathN F w n r s := by
  induction h with
  | refl => intro e; subst e; exact ⟨0, .nil⟩
  | step ht hg _ ih =>
    intro e
    obtain ⟨n, h⟩ := ih e
    exact ⟨n + 1, .step ht hg h⟩

/-- How many instructions a thread has to execute in its snippet. -/
def Due (Z : W → Prop) (n : Nat) (t : State) : Stand κ → Prop
  | .own _ => True
  | .busy w r _ => ∃ F s, PathN F w n r s ∧ AgreeOn F s t ∧ ∀ x, F x → Z x

omit [DecidableEq ι] in
theorem Due.some_ (h : CoreSim D g A Q M N) (i : ι) : ∃ n, Due (A i) n (N.at_ i) (N.pos i) := by
  obtain ⟨b, hq, hg⟩ := h.thr i
  generalize N.pos i = p at hg
  generalize M.pos i = m at hg
  cases hg with
  | own => exact ⟨0, trivial⟩
  | busy h1 _ h3 h4 =>
    obtain ⟨n, hn⟩ := Path.count h1 rfl
    exact ⟨n, _, _, hn, h3, h4⟩

theorem Due.moved {Z : W → Prop} {n : Nat} {t t' : State} {p : Stand κ} (h : Due Z n t p) (hr : t'.regs = t.regs)
    (hf : t'.flags = t.flags) (hg : t'.gs = t.gs) (hm : ∀ x, Z x → t'.mem x = t.mem x) : Due Z n t' p := by
  cases p with
  | own => trivial
  | busy w r k' =>
    obtain ⟨F, s, h1, h2, h3⟩ := h
    exact ⟨F, s, h1, ⟨hr.trans h2.regs, hf.trans h2.flags, hg.trans h2.gs, fun x hx => (hm x (h3 x hx)).trans (h2.mem x hx)⟩, h3⟩

theorem Due.skips {Z : W → Prop} {t : State} {w r r' : Code} {k' : κ} (hs : Skips r r') :
    ∀ {n : Nat}, Due Z n t (.busy w r k') → ∃ n', n' ≤ n ∧ Due Z n' t (.busy w r' k') := by
  induction hs with
  | refl => exact fun {n} h => ⟨n, Nat.le_refl n, h⟩
  | bind _ ih =>
    rintro n ⟨F, s, h1, h2, h3⟩
    cases h1 with
    | step ht hg h1 =>
      obtain ⟨rfl, rfl⟩ := hg.det (.next rfl)
      obtain ⟨n', h4, h5⟩ := ih ⟨F, _, h1, h2, h3⟩
      exact ⟨n', by omega, h5⟩

theorem Due.go {Z : W → Prop} {n : Nat} {t t' : State} {w r r' : Code} {ins : Instr} {k' : κ} (h : Due Z n t (.busy w (ins :: r) k'))
    (hg : Go w (ins :: r) t r' t') : ∃ n', n = n' + 1 ∧ Due Z n' t' (.busy w r' k') := by
  obtain ⟨F, s, h1, h2, h3⟩ := h
  cases h1 with
  | step ht hg1 h1 =>
    obtain ⟨s1', hg3, hag, _⟩ := hg.agree h2 ht
    obtain ⟨rfl, rfl⟩ := hg1.det hg3
    exact ⟨_, rfl, F, _, h1, hag, h3⟩

/-! ## Other threads -/

/-- Others change neither the thread's place nor its registers, nor its area. -/
theorem CoreSim.others (hP : P.Respects D g A M0) (hH : P.Accounts D g A M0 Q) {tr : List (ι × L)} (hrun : CoreRun P M0 tr M)
    (h : CoreSim D g A Q M N) {i j : ι} (hj : i ≠ j) {ls : List L} (hs : ArmedMove P N j ls (some N')) :
    N'.pos i = N.pos i ∧ N'.cpu i = N.cpu i ∧ ∀ x, A i x → N'.view i x = N.view i x := by
  generalize hc : some N' = c at hs
  cases hs with
  | own | enter | instr | leave => cases hc; exact ⟨if_neg hj, if_neg hj, fun x _ => by rw [Cores.put_view_ne _ hj]⟩
  | trap => cases hc
  | locked hk hl hb ht =>
    cases hc
    refine ⟨if_neg hj, if_neg hj, fun x hx => Cores.sync_view_ne _ _ _ _ _ fun w hw e => ?_⟩
    obtain ⟨M1, k1, k2, k3, k5⟩ := h.empty_left hP hH (i := j) _ rfl hrun
    obtain ⟨rfl, b, _, hsm⟩ := k2.sim hk
    exact ((hP.spares _ _ _ _ _ _ _ _ (hrun.trans k1) hsm.same ht).2.1 w hw).2 i hj (e ▸ hx)
  | drain hb =>
    cases hc
    refine ⟨rfl, rfl, fun x hx => Cores.drain_view_ne _ hj fun e => ?_⟩
    exact (h.ours j i hj).2 _ (by rw [hb]; exact List.mem_cons_self ..) (e ▸ hx)

theorem Due.other (hP : P.Respects D g A M0) (hH : P.Accounts D g A M0 Q) (hm : Met P D g A Q M0 M N) {i j : ι} (hj : i ≠ j)
    {ls : List L} {n : Nat} (hd : Due (A i) n (N.at_ i) (N.pos i)) (hs : ArmedMove P N j ls (some N')) :
    Due (A i) n (N'.at_ i) (N'.pos i) := by
  obtain ⟨⟨tr, hrun⟩, h⟩ := hm
  obtain ⟨h1, h2, h3⟩ := h.others hP hH hrun hj hs
  rw [h1]
  refine hd.moved ?_ ?_ ?_ h3 <;> simp [Cores.at_, Cpu.with_, h2]

theorem Met.step (hP : P.Respects D g A M0) (hH : P.Accounts D g A M0 Q) (hm : Met P D g A Q M0 M N) {i : ι}
    {ls : List L} (hs : ArmedMove P N i ls (some N')) : ∃ M', Met P D g A Q M0 M' N' := by
  obtain ⟨M', _, e, _, h⟩ := (Met.bisim hP hH).back _ _ _ _ hm (ArmedFrom.start.step hs)
  cases e
  exact ⟨M', h⟩

theorem Due.only (hP : P.Respects D g A M0) (hH : P.Accounts D g A M0 Q) {i j : ι} (hj : i ≠ j) {n : Nat} (ho : OnlyCore P j N N') :
    ∀ {M : Cores ι κ}, Met P D g A Q M0 M N → Due (A i) n (N.at_ i) (N.pos i) →
      (∃ M', Met P D g A Q M0 M' N') ∧ Due (A i) n (N'.at_ i) (N'.pos i) := by
  induction ho with
  | refl => exact fun {M} hm hd => ⟨⟨M, hm⟩, hd⟩
  | step hs _ _ ih =>
    intro M hm hd
    obtain ⟨M', hm'⟩ := hm.step hP hH hs
    exact ih hm' (hd.other hP hH hm hj hs)

theorem Met.only (hP : P.Respects D g A M0) (hH : P.Accounts D g A M0 Q) {i : ι} (ho : OnlyCore P i N N') :
    ∀ {M : Cores ι κ}, Met P D g A Q M0 M N → ∃ M', Met P D g A Q M0 M' N' := by
  induction ho with
  | refl => exact fun {M} hm => ⟨M, hm⟩
  | step hs _ _ ih =>
    intro M hm
    obtain ⟨M', hm'⟩ := hm.step hP hH hs
    exact ih hm'

/-! ## Bytes -/

variable {I : Image κ} {B B' : Cores ι (Footing κ)}

/-- One instruction of the bytes is at least one of the list. -/
theorem CoreRel.turn (hP : P.Respects D g A M0) (hH : P.Accounts D g A M0 Q) (h : CoreRel I P B N)
    (hm : Met P D g A Q M0 M N) {i : ι} {n : Nat} (hd : Due (A i) n (N.at_ i) (N.pos i)) (hs : ByteNext I i B B') :
    ∃ M' N' n', n' < n ∧ CoreRel I P B' N' ∧ Met P D g A Q M0 M' N' ∧ Due (A i) n' (N'.at_ i) (N'.pos i) := by
  cases hs with
  | @next k k' a x x' l s' ws hq hi hin hx hw hws =>
    have hf := h.foot i
    rw [hq] at hf
    generalize ha : N.pos i = q at hf
    cases hf with
    | @inside _ k1 _ w r hseat =>
    obtain ⟨a1, n1, hi1, hn, hb⟩ := hseat.back (N.at_ i)
    rw [hi] at hi1
    cases hi1
    rcases hb with ⟨rfl, _⟩ | ⟨_, ins, r1, hnb, hsk, hseat1, hb⟩
    · exact absurd hin (not_inside_end hn)
    have hal := hsk.only (P := P) ha
    rw [ha] at hd
    obtain ⟨n1, hle, hd1⟩ := Due.skips hsk hd
    generalize hN1 : N.put i (.busy w (ins :: r1) k') (N.cpu i) [] = N1 at hal
    have p1 : N1.pos i = .busy w (ins :: r1) k' := by rw [← hN1, Cores.pos_put]
    have hr1 : CoreRel I P B N1 := by
      rw [← hN1]
      refine h.stay ?_
      rw [hq]
      exact .inside hseat1
    have e1 : N1.at_ i = N.at_ i := by rw [← hr1.at_eq, h.at_eq]
    obtain ⟨M1, hm1⟩ := Met.only hP hH hal hm
    rcases hb with rfl | ⟨x1, s1, r', hg, hx1, hseat'⟩
    · exact (hm1.2.no_trap p1 (t' := N1.at_ i) rfl).elim
    · rw [h.at_eq, hx1] at hx
      cases hx
      rw [← e1] at hd1 hg
      rw [hr1.view_eq] at hw
      have hmv : ArmedMove P N1 i [] (some (N1.put i (.busy w r' k') s'.cpu ws)) := by
        refine .instr p1 hg hw fun b hb => ?_
        obtain ⟨p, hp, hr⟩ := hws b hb
        rw [hseat1.stores hnb, hr1.at_eq] at hp
        exact ⟨p, hp, hr⟩
      obtain ⟨M2, hm2⟩ := hm1.step hP hH hmv
      obtain ⟨n2, e2, hd2⟩ := hd1.go hg
      refine ⟨M2, _, n2, by omega, hr1.put (.inside hseat') _ _, hm2, ?_⟩
      rw [Cores.put_at _ _ _ hw, Cores.pos_put]
      exact hd2

theorem CoreRel.turns (hI : I.Of P.sites) (hP : P.Respects D g A M0) (hH : P.Accounts D g A M0 Q) {i : ι} {m : Nat}
    (hs : ByteTurns P I i B m B') : ∀ {M : Cores ι κ} {N : Cores ι (Stand κ)} {n : Nat}, CoreRel I P B N → Met P D g A Q M0 M N →
      Due (A i) n (N.at_ i) (N.pos i) → m ≤ n ∧ ∃ M' N', CoreRel I P B' N' ∧ Met P D g A Q M0 M' N' := by
  induction hs with
  | refl => exact fun h hm _ => ⟨Nat.zero_le _, _, _, h, hm⟩
  | next hs _ ih =>
    intro M N n h hm hd
    obtain ⟨M', N', n', h1, h2, h3, h4⟩ := h.turn hP hH hm hd hs
    obtain ⟨h5, h6⟩ := ih h2 h3 h4
    exact ⟨by omega, h6⟩
  | @drain B _ _ w ws hb _ ih =>
    intro M N n h hm hd
    have hb' : N.buf i = w :: ws := by rw [← h.buf]; exact hb
    obtain ⟨M', hm'⟩ := hm.step hP hH (.drain hb')
    refine ih (h.drain w ws) hm' ?_
    rw [Cores.at_eq (M := N) (M' := N.drain i w ws) rfl (N.drain_view i hb')]
    exact hd
  | @other B B1 _ _ j ls hj hs _ ih =>
    intro M N n h hm hd
    obtain ⟨N1, h1, h2⟩ := h.backward hI hs
    obtain ⟨⟨M1, hm1⟩, hd1⟩ := Due.only hP hH (Ne.symm hj) h1 hm hd
    rcases h2 with ⟨N2, B2, h3, e, h4⟩ | ⟨h3, _⟩
    · cases e
      obtain ⟨M2, hm2⟩ := hm1.step hP hH h3
      exact ih h4 hm2 (hd1.other hP hH hm1 (Ne.symm hj) h3)
    · obtain ⟨_, _, e, _⟩ := (Met.bisim hP hH).back _ _ _ _ hm1 (ArmedFrom.start.step h3)
      cases e

/-- In a snippet there is a next instruction, or it is over. -/
theorem CoreRel.goes_on (h : CoreRel I P B N) (hm : Met P D g A Q M0 M N) {i : ι} {k : κ} {x : W} (hq : B.pos i = .inside k x)
    (hP : P.Respects D g A M0) (hH : P.Accounts D g A M0 Q) :
    (∃ B', ByteNext I i B B') ∨ ∃ a l k', I.site k = some (a, l, k') ∧ x = a + BitVec.ofNat 64 l := by
  have hf := h.foot i
  rw [hq] at hf
  generalize ha : N.pos i = q at hf
  cases hf with
  | @inside _ k1 _ w r hseat =>
  obtain ⟨a1, n1, hi1, hn, hb⟩ := hseat.back (N.at_ i)
  rcases hb with ⟨rfl, _⟩ | ⟨hin, ins, r1, hnb, hsk, hseat1, hb⟩
  · exact .inr ⟨a1, n1, _, hi1, rfl⟩
  refine .inl ?_
  have hal := hsk.only (P := P) ha
  obtain ⟨M1, hm1⟩ := Met.only hP hH hal hm
  rcases hb with rfl | ⟨x1, s1, r', hg, hx1, hseat'⟩
  · exact (hm1.2.no_trap (Cores.pos_put ..) (t' := _) rfl).elim
  · obtain ⟨ws, hws, hst⟩ := go_writes hg
    refine ⟨_, .next hq hi1 hin (by rw [h.at_eq]; exact hx1) (by rw [h.view_eq]; exact hws) fun b hb => ?_⟩
    rw [hseat1.stores hnb, h.at_eq]
    exact hst b hb

/-- **C127.** In memory, on processors with store buffers, snippets come to an end whatever other threads and buffers do, under the
conditions of C123. -/
theorem C127_ends (hI : I.Of P.sites) (hP : P.Respects D g A M0) (hH : P.Honest D g A M0)
    (hr : ∀ i, Recorded (g i) [] (M0.at_ i)) (hf : ∀ i, (D i).frame (M0.pos i) = none) : I.Ends P M0 := by
  obtain ⟨Q, hH⟩ := hH
  intro tr B i hB
  have h0 : Met P D g A Q M0 M0 M0.arm := ⟨⟨_, .start⟩, CoreSim.start hP hH hr hf⟩
  obtain ⟨M, _, e, _, N, h1, h2⟩ := ((Met.bisim hP hH).bytes hI).back _ _ _ _ ⟨_, .start, h0⟩ hB.later
  cases e
  obtain ⟨n, hd⟩ := Due.some_ h2.2 i
  refine ⟨n, fun m B' ht => ?_⟩
  obtain ⟨h3, M', N', h4, h5⟩ := CoreRel.turns hI hP hH ht h1 h2 hd
  exact ⟨h3, fun k x hx => h4.goes_on h5 hx hP hH⟩

/-! ## The binaries which the tool writes -/

section Light

variable {B : Binary} {fl : InstrFlags} {jf : JitFlags} {skip : List Nat} {co : CodeObj} {info : StackInfo}
  {R : Func → RegFacts} {T : Sums} {bf : Func → BFunc} {plan : Func → Plan} {dead : Func → DeadNames} {frame : Func → Reg}
  {view : ι → κ → List XAct}

/-- **C127, light mode.** -/
theorem C127_light_partial (hI : I.Of P.sites) (hB : BinaryOk B fl jf co info R bf dead frame)
    (hb : Built fl skip co info R T bf plan) (hcall : ∀ f ∈ co.funcs, NoCallAtCheck fl co (bf f))
    (hP : P.Follows (semOf co info plan (inRegOf fl T) (staysOf bf)) frame
      (B.SnippetAt jf (fun f => (T f).jit (dead f)) co plan) (B.Spoils jf co dead) D view False g A M0)
    (hR : P.Respects D g A M0) (hr : ∀ i, Recorded (g i) [] (M0.at_ i))
    (hdepth : ∀ tr M i, CoreRun P M0 tr M → 40 + 8 * (view i (M.pos i)).length ≤ regionSize) :
    I.Ends P M0 :=
  C127_ends hI hR (honest_light hB hb hcall hP hR hdepth) hr hP.frameless

/-- **C127, light mode, with exceptions and `longjmp`.** -/
theorem C127_unwinding_partial (hI : I.Of P.sites) (hB : BinaryOk B fl jf co info R bf dead frame)
    (hb : Built fl skip co info R T bf plan) (hcall : ∀ f ∈ co.funcs, NoCallAtCheck fl co (bf f))
    (hh : ∀ f ∈ co.funcs, HandlersOk co (bf f) f)
    (hn : ∀ f ∈ co.funcs, inRegOf fl T f → ∀ b ∈ co.blocks f, ∀ e ∈ co.targets b, e.type ≠ .catch)
    (hP : P.Follows (semOn Flow co plan info (inRegOf fl T) (staysOf bf)) frame
      (B.SnippetAt jf (fun f => (T f).jit (dead f)) co plan) (B.Spoils jf co dead) D view True g A M0)
    (hR : P.Respects D g A M0) (hr : ∀ i, Recorded (g i) [] (M0.at_ i))
    (hroom : ∀ i l M, CoreAnnounced P (semOn Flow co plan info (inRegOf fl T) (staysOf bf)) view M0 i l M →
      40 + 8 * l.length ≤ regionSize) :
    I.Ends P M0 :=
  C127_ends hI hR (honest_unwinding hB hb hcall hh hn hP hR hroom) hr hP.frameless

end Light

section Full

variable {B : Binary} {fl : InstrFlags} {jf : JitFlags} {skip : List Nat} {co : CodeObj} {info : StackInfo}
  {bf : Func → BFunc} {plan : Func → Plan} {frame : Func → Reg} {view : ι → κ → List XAct}

/-- **C127, full mode.** -/
theorem C127_full_partial (hI : I.Of P.sites) (hB : FullBinaryOk B jf co) (hb : BuiltFull fl skip co bf plan)
    (hP : P.Follows (semOf co info plan (fun _ => False) (staysOf bf)) frame (B.FullSnippetAt jf co plan)
      (fun _ _ _ _ => False) D view False g A M0)
    (hR : P.Respects D g A M0) (hr : ∀ i, Recorded (g i) [] (M0.at_ i))
    (hdepth : ∀ tr M i, CoreRun P M0 tr M → 40 + 8 * (view i (M.pos i)).length ≤ regionSize) :
    I.Ends P M0 :=
  C127_ends hI hR (honest_full hB hb hP hR hdepth) hr hP.frameless

/-- **C127, full mode, with exceptions and `longjmp`.** -/
theorem C127_full_unwinding_partial (hI : I.Of P.sites) (hB : FullBinaryOk B jf co) (hb : BuiltFull fl skip co bf plan)
    (hh : ∀ f ∈ co.funcs, HandlersOk co (bf f) f)
    (hP : P.Follows (semOn Flow co plan info (fun _ => False) (staysOf bf)) frame (B.FullSnippetAt jf co plan)
      (fun _ _ _ _ => False) D view True g A M0)
    (hR : P.Respects D g A M0) (hr : ∀ i, Recorded (g i) [] (M0.at_ i))
    (hroom : ∀ i l M, CoreAnnounced P (semOn Flow co plan info (fun _ => False) (staysOf bf)) view M0 i l M →
      40 + 8 * l.length ≤ regionSize) :
    I.Ends P M0 :=
  C127_ends hI hR (honest_full_unwinding hB hb hh hP hR hroom) hr hP.frameless

end Full

/-! ## Example -/

/-- The snippets of the two threads of `C123_example`, on a processor with AVX-512 or without. -/
theorem C127_example (b : Bool → W) (avx : Bool) : ∃ I : Image Nat, I.Of noteProg.sites ∧ I.avx = avx ∧
    I.Ends noteProg (note0 b) := by
  obtain ⟨I, h1, h2⟩ := rec_image avx
  have h1 : I.Of noteProg.sites := ⟨h1.none, h1.some⟩
  exact ⟨I, h1, h2, C127_full_partial h1 Small.fullBinaryOk recProg_ok.full (note_follows b) (C123_respects note_fair (note_loses b))
    (fun i => recorded_region (pair0_recorded b i) rfl fun _ hx => note0_view b i i (.inl hx))
    fun _ M i _ => pair_depth i (M.pos i)⟩

end Verif
