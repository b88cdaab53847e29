import Verif.RefineTeam
import Verif.Props.Refine
import Verif.Props.FootWrites
import Verif.Props.Threads

/-! C108: an instrumented program with several threads does what the original does. -/

namespace Verif

variable {ι κ L : Type}

/-- How a thread of the original in state `s` at `k` and of the instrumented program in state `t` correspond,
apart from memory which both can see; `kp` are the bytes of the thread.  Inside of a snippet: undisturbed, the
rest of it would lead from `s1` to `s2`. -/
inductive Going (D : Blind κ) (g : W) (kp : W → Prop) (b : Book) (s t : State) (k : κ) : Stand κ → Prop
  | own : Near (D.hides k) (D.flags k) (fun _ => True) s t → Recorded g b.pend t →
      LeafOk g s t (D.frame k) b.leaf → Going D g kp b s t k (.own k)
  | busy {w r : Code} {s1 s2 : State} {F G : W → Prop} : Path F w r s1 [] s2 → Wr.Path G w r s1 [] s2 →
      AgreeOn F s1 t → (∀ x, F x → kp x) → (∀ x, InRange x g regionSize → F x) →
      (∀ x, G x → D.mem k (s.regs .rsp) x) →
      Near (D.hides k) (D.flags k) (fun _ => True) s s2 → Recorded g b.pend s2 →
      LeafOk g s s2 (D.frame k) b.leaf → Going D g kp b s t k (.busy w r k)

theorem Going.point {D : Blind κ} {g : W} {kp : W → Prop} {b : Book} {s t : State} {k : κ} {p : Stand κ}
    (h : Going D g kp b s t k p) : p.point = k := by cases h <;> rfl

theorem recorded_foot {g x : W} (hx : InRange x g 8 ∨ InRange x (g + 16) (regionSize - 16)) :
    InRange x g regionSize := by
  rcases hx with hx | hx
  · exact inRange_sub hx (by rw [BitVec.sub_self]; decide)
  · refine inRange_sub hx ?_
    have : g + 16 - g = 16#64 := by bv_omega
    rw [this]; decide

/-- Nobody has touched it. -/
theorem Going.still {D : Blind κ} {g : W} {kp : W → Prop} {b : Book} {s s' t t' : State} {k : κ} {p : Stand κ}
    (h : Going D g kp b s t k p) (hg : ∀ x, InRange x g regionSize → kp x) (hs : s'.cpu = s.cpu)
    (ht : t'.cpu = t.cpu) (hm : ∀ x, kp x → t'.mem x = t.mem x) : Going D g kp b s' t' k p := by
  simp only [State.cpu, Cpu.mk.injEq] at hs ht
  obtain ⟨r1, f1, g1⟩ := hs
  obtain ⟨r2, f2, g2⟩ := ht
  cases h with
  | own h1 h2 h3 =>
    refine .own ⟨fun r hr => ?_, fun hf => ?_, ?_, fun _ h => absurd trivial h⟩ (h2.keep g2 fun x hx => hm x ?_) ?_
    · rw [r1, r2]; exact h1.regs r hr
    · rw [f1, f2]; exact h1.flags hf
    · rw [g1, g2]; exact h1.gs
    · exact hg x (recorded_foot hx)
    · generalize D.frame k = F at h3 ⊢
      generalize b.leaf = lf at h3 ⊢
      cases h3 with
      | out => exact .out
      | inside e1 e2 =>
        refine .inside (by rw [r2]; exact e1) ?_
        rw [r1, ← e2]
        exact read64_eq _ _ _ fun x hx => hm x (hg x (scratch_region hx))
  | busy h1 h2 h3 h4 h5 h6 h7 h8 h9 =>
    refine .busy h1 h2 ⟨r2.trans h3.regs, f2.trans h3.flags, g2.trans h3.gs, fun x hx =>
      (hm x (h4 x hx)).trans (h3.mem x hx)⟩ h4 h5 (by rw [r1]; exact h6) ⟨fun r hr => ?_, fun hf => ?_, ?_,
      fun _ h => absurd trivial h⟩ h8 ?_
    · rw [r1]; exact h7.regs r hr
    · rw [f1]; exact h7.flags hf
    · rw [g1]; exact h7.gs
    · generalize D.frame k = F at h9 ⊢
      generalize b.leaf = lf at h9 ⊢
      cases h9 with
      | out => exact .out
      | inside e1 e2 => exact .inside e1 (by rw [r1]; exact e2)

section
variable [DecidableEq ι] {P : Guest κ L} {D : ι → Blind κ} {g : ι → W} {keep : ι → κ → W → W → Prop}
  {M0 : Squad ι κ} {Q : ι → Book → Squad ι κ → Prop} {M : Squad ι κ} {N : Squad ι (Stand κ)}

theorem put_at (M : Squad ι κ) (i : ι) (k : κ) (s : State) : (M.put i k s).at_ i = s := by
  simp [Squad.at_, Squad.put, State.cpu]

theorem put_at_ne (M : Squad ι κ) {i j : ι} (h : j ≠ i) (k : κ) (s : State) :
    (M.put i k s).at_ j = { M.at_ j with mem := s.mem } := by
  simp [Squad.at_, Squad.put, h]

theorem put_pos (M : Squad ι κ) (i : ι) (k : κ) (s : State) : (M.put i k s).pos i = k := by simp [Squad.put]

theorem put_pos_ne (M : Squad ι κ) {i j : ι} (h : j ≠ i) (k : κ) (s : State) : (M.put i k s).pos j = M.pos j := by
  simp [Squad.put, h]

theorem put_sp (M : Squad ι κ) (i : ι) (k : κ) (s : State) : (M.put i k s).sp i = s.regs .rsp := by
  simp [Squad.sp, Squad.put, State.cpu]

theorem put_sp_ne (M : Squad ι κ) {i j : ι} (h : j ≠ i) (k : κ) (s : State) : (M.put i k s).sp j = M.sp j := by
  simp [Squad.sp, Squad.put, h]

/-- What the threads see of the others does not depend on where they are themselves. -/
theorem blind_put (M : Squad ι κ) (D : ι → Blind κ) (i : ι) (k : κ) (s : State) :
    (M.put i k s).blind D i = M.blind D i := by
  have : ∀ x, (∃ j, j ≠ i ∧ (D j).mem ((M.put i k s).pos j) ((M.put i k s).sp j) x) =
      ∃ j, j ≠ i ∧ (D j).mem (M.pos j) (M.sp j) x := fun x =>
    propext (exists_congr fun j => and_congr_right fun hj => by rw [put_pos_ne M hj, put_sp_ne M hj])
  simp only [Squad.blind, this]

/-- What some thread has left behind. -/
def Squad.Lost (M : Squad ι κ) (D : ι → Blind κ) (x : W) : Prop := ∃ i, (D i).mem (M.pos i) (M.sp i) x

theorem lost_iff (M : Squad ι κ) (D : ι → Blind κ) (i : ι) (x : W) :
    M.Lost D x ↔ (M.blind D i).mem (M.pos i) (M.sp i) x := by
  constructor
  · rintro ⟨j, hj⟩
    by_cases e : j = i
    · subst e; exact .inl hj
    · exact .inr ⟨j, e, hj⟩
  · rintro (h | ⟨j, _, h⟩)
    · exact ⟨i, h⟩
    · exact ⟨j, h⟩

theorem lost_put (M : Squad ι κ) (D : ι → Blind κ) (i : ι) (k : κ) (s : State) (x : W) :
    (M.put i k s).Lost D x ↔ (M.blind D i).mem k (s.regs .rsp) x := by
  rw [lost_iff _ _ i, blind_put, put_pos, put_sp]

/-- How the threads correspond. -/
structure SquadSim (D : ι → Blind κ) (g : ι → W) (keep : ι → κ → W → W → Prop)
    (Q : ι → Book → Squad ι κ → Prop) (M : Squad ι κ) (N : Squad ι (Stand κ)) : Prop where
  mem : ∀ x, ¬ M.Lost D x → N.mem x = M.mem x
  thr : ∀ i, ∃ b, Q i b M ∧
    Going (D i) (g i) (keep i (M.pos i) (M.sp i)) b (M.at_ i) (N.at_ i) (M.pos i) (N.pos i)

/-- Outside of snippets it is the correspondence of a single thread. -/
theorem SquadSim.sim (h : SquadSim D g keep Q M N) {i : ι} {k : κ} (hk : N.pos i = .own k) :
    M.pos i = k ∧ ∃ b, Q i b M ∧ Sim (M.blind D i) (g i) b k (M.at_ i) (N.at_ i) := by
  obtain ⟨b, hq, hg⟩ := h.thr i
  rw [hk] at hg
  generalize hp : M.pos i = p at hg ⊢
  cases hg with
  | own h1 h2 h3 =>
    exact ⟨rfl, b, hq, ⟨h1.regs, h1.flags, h1.gs, fun x hx => h.mem x fun hl => hx (by
      have := (lost_iff M D i x).1 hl
      rwa [hp] at this)⟩, h2, h3⟩

/-- A thread has moved, in both programs; the others have not noticed. -/
theorem SquadSim.moved (hP : P.TeamRespects D g keep M0) (h : SquadSim D g keep Q M N) {i : ι} {k : κ} {p : Stand κ}
    {s t : State} {b : Book} (hmem : ∀ x, ¬ (M.blind D i).mem k (s.regs .rsp) x → t.mem x = s.mem x)
    (hq : Q i b (M.put i k s)) (hg : Going (D i) (g i) (keep i k (s.regs .rsp)) b s t k p)
    (hother : ∀ j b, j ≠ i → Q j b M → Q j b (M.put i k s))
    (hkeep : ∀ j x, j ≠ i → keep j (M.pos j) (M.sp j) x → t.mem x = N.mem x) :
    SquadSim D g keep Q (M.put i k s) (N.put i p t) where
  mem x hx := hmem x fun h => hx ((lost_put M D i k s x).2 h)
  thr j := by
    by_cases e : j = i
    · subst e
      exact ⟨b, hq, by
        rw [put_pos, put_at, put_at, put_pos, put_sp]; exact hg⟩
    · obtain ⟨b', hq', hg'⟩ := h.thr j
      refine ⟨b', hother j b' e hq', ?_⟩
      rw [put_pos_ne M e, put_at_ne M e, put_at_ne N e, put_pos_ne N e, put_sp_ne M e]
      exact hg'.still (fun x hx => (hP.region j _ _ x hx).2) rfl rfl fun x hx => hkeep j x e hx

/-- A step of the program, from the correspondence of the thread. -/
theorem SquadSim.owned (hP : P.TeamRespects D g keep M0) (hH : P.TeamAccounts D g keep M0 Q)
    (h : SquadSim D g keep Q M N) {tr : List (ι × L)} (hrun : SquadRun P M0 tr M) {i : ι} {k' : κ} {s' t' : State}
    {l : L} (hk : N.pos i = .own (M.pos i)) (hs : P.step (M.pos i) (M.at_ i) l k' s')
    (ht : P.step (M.pos i) (N.at_ i) l k' t') (hn : (M.blind D i).Same k' s' t') :
    SquadSim D g keep Q (M.put i k' s') (N.put i (.own k') t') := by
  obtain ⟨_, b, hq, hsim⟩ := h.sim hk
  obtain ⟨g1, m1, o1, r1, f1⟩ := hP.spares _ _ _ _ _ _ _ hrun hsim.same ht
  obtain ⟨_, _, _, r2, _⟩ := hP.spares _ _ _ _ _ _ _ hrun (Near.rfl' _ _ _ _) hs
  refine h.moved hP hn.mem (hH.own _ _ _ _ _ _ _ hrun hq hs) ?_ (fun j b' hj hq' =>
    hH.other _ _ _ _ _ _ _ _ hrun hq' hj (.own hs)) (fun j x hj hx => o1 j x hj hx)
  refine .own ⟨hn.regs, hn.flags, hn.gs, fun _ h => absurd trivial h⟩
    (hsim.held.keep g1 fun x hx => m1 x (recorded_foot hx)) ?_
  have hl := hsim.leaf
  rw [f1]
  change LeafOk _ _ _ ((D i).frame (M.pos i)) _ at hl
  generalize hF : (D i).frame (M.pos i) = F at hl ⊢
  generalize b.leaf = lf at hl ⊢
  cases hl with
  | out => exact .out
  | inside e1 e2 =>
    refine .inside ((r1 _ hF).trans e1) ?_
    rw [r2 _ hF, ← e2]
    exact read64_eq _ _ _ fun x hx => m1 x (scratch_region hx)

/-- A program without instructions. -/
def idleGuest (P : Guest κ L) : Guest κ L := ⟨fun _ _ _ _ _ => False, P.site⟩

theorem idle_respects (hP : P.TeamRespects D g keep M0) (i : ι) (k0 : κ) (s0 : State) :
    (idleGuest P).Respects (M.blind D i) (g i) k0 s0 where
  rsp := hP.rsp i
  region k sp x hx := .inl (hP.region i k sp x hx).1
  spares _ _ _ _ _ _ _ _ _ h := h.elim
  forth _ _ _ _ _ _ _ _ _ h := h.elim
  back _ _ _ _ _ _ _ _ _ h := h.elim

theorem trapped {c k : Code} {t s' : State} (h : ∀ {o}, Ends c (.illegal :: k) s' o → Ends c c t o) : Traps c t := by
  obtain ⟨n, hn⟩ := h (ends_trap (s' := s') rfl)
  exact ⟨n, _, hn⟩

/-- The way of a snippet which falls through. -/
theorem exits_path {F : W → Prop} {c : Code} {t t' : State} (hw : Within F c c t) (he : Exits c t t') :
    Path F c c t [] t' := by
  cases hw with
  | exits s' hp =>
    have := he.det (hp.ends (ends_nil _ _))
    subst this; exact hp
  | traps k' s' hp => exact (he.not_traps (trapped hp.ends)).elim

theorem exits_wr {F : W → Prop} {c : Code} {t t' : State} (hw : Wr.Within F c c t) (he : Exits c t t') :
    Wr.Path F c c t [] t' := by
  cases hw with
  | exits s' hp =>
    have := he.det (hp.ends (ends_nil _ _))
    subst this; exact hp
  | traps k' s' hp => exact (he.not_traps (trapped hp.ends)).elim

/-- What a snippet touches and writes, where it belongs. -/
theorem Site.paths {D : Blind κ} {g : W} {k k' : κ} {x : Site} {s t : State} {b b' : Book}
    (hr : t.regs .rsp = s.regs .rsp) (hw : x.word t = x.word s)
    (hv : t.mem.read64 (x.word s) = s.mem.read64 (x.word s)) (ha : Apart g (x.word t) x.below t)
    (hf : x.Fits D g k k' s) (hb : x.Keeps s b b') (h : Sim D g b k s t) :
    Within (SnipFoot g (x.word s) (s.regs .rsp) x.below) x.code x.code t ∧
    Wr.Within (Wr.Foot g (s.regs .rsp) x.below) x.code x.code t := by
  rw [← hr, ← hw]
  have he := hf.emitted
  cases hb with
  | push hroom => exact ⟨IsPush.within he h.held ha hroom, Wr.push_within he h.held ha hroom⟩
  | check _ => exact ⟨IsCheck.within he h.held ha, Wr.check_within he h.held ha⟩
  | save => exact ⟨IsRegPush.within he h.held.gs, Wr.regPush_within he h.held.gs⟩
  | @compare c r p =>
    have hl := h.leaf
    rw [hf.frames.1] at hl
    have e : t.regs r = s.mem.read64 (s.regs .rsp) := by
      cases hl with
      | inside e _ => exact e
    have : t.mem.read64 (t.regs .rsp) = t.regs r := by
      rw [e, show t.regs .rsp = s.regs .rsp from hw]; exact hv
    exact ⟨Wr.regPop_looks he h.held.gs this, Wr.regPop_within he this⟩

/-- A snippet begins. -/
theorem SquadSim.entered (hP : P.TeamRespects D g keep M0) (hH : P.TeamAccounts D g keep M0 Q)
    (h : SquadSim D g keep Q M N) {tr : List (ι × L)} (hrun : SquadRun P M0 tr M) {i : ι} {k' : κ} {c : Code}
    (hk : N.pos i = .own (M.pos i)) (hx : P.site (M.pos i) = some (c, k')) :
    SquadSim D g keep Q (M.put i k' (M.at_ i)) (N.put i (.busy c c k') (N.at_ i)) := by
  obtain ⟨_, b, hq, hsim⟩ := h.sim hk
  obtain ⟨x, b', rfl, hfit, hb, hq', hkeep, hbelow⟩ := hH.pass _ _ _ _ _ _ hrun hq hx
  have hR := idle_respects (M := M) hP i (M.pos i) (M.at_ i)
  obtain ⟨t', he, hsim'⟩ := hsim.snip hR hfit hb
  obtain ⟨hw, hv⟩ := hfit.read hR hsim.same
  obtain ⟨w1, w2⟩ := Site.paths (hR.same_rsp hsim.same) hw hv (hfit.apart' hR hsim.same) hfit hb hsim
  refine h.moved hP (fun a ha => ?_) hq' ?_ (fun j b1 hj hq1 =>
    hH.other _ _ _ _ _ _ _ _ hrun hq1 hj (.pass hx)) fun _ _ _ _ => rfl
  · exact hsim.same.mem a fun hl => ha (hfit.mem a (.inl hl))
  · refine .busy (exits_path w1 he) (exits_wr w2 he) ⟨rfl, rfl, rfl, fun _ _ => rfl⟩ ?_ (fun a ha => .inl ha) ?_
      ⟨hsim'.same.regs, hsim'.same.flags, hsim'.same.gs, fun _ h => absurd trivial h⟩ hsim'.held hsim'.leaf
    · rintro a (ha | ha | ha)
      · exact (hP.region i _ _ a ha).2
      · exact hkeep a ha
      · exact (hbelow a ha).1
    · rintro a (ha | ha)
      · exact (hP.region i _ _ a ha).1
      · exact (hbelow a ha).2

theorem put_self (M : Squad ι κ) (i : ι) : M.put i (M.pos i) (M.at_ i) = M := by
  obtain ⟨mem, pos, cpu⟩ := M
  simp only [Squad.put, Squad.at_, State.cpu, Squad.mk.injEq, true_and]
  constructor
  · funext j; split
    · subst_vars; rfl
    · rfl
  · funext j; split
    · subst_vars; rfl
    · rfl

/-- An instruction of a snippet. -/
theorem SquadSim.instr (hP : P.TeamRespects D g keep M0) (h : SquadSim D g keep Q M N) {tr : List (ι × L)}
    (hrun : SquadRun P M0 tr M) {i : ι} {k' : κ} {w r r' : Code} {t' : State} (hk : N.pos i = .busy w r k')
    (hgo : Go w r (N.at_ i) r' t') : SquadSim D g keep Q M (N.put i (.busy w r' k') t') := by
  obtain ⟨b, hq, hg⟩ := h.thr i
  rw [hk] at hg
  have hpt := hg.point
  simp only [Stand.point] at hpt
  subst hpt
  cases hg with
  | @busy _ _ s1 s2 F G h1 h2 h3 h4 h5 h6 h7 h8 h9 =>
    obtain ⟨ins, r0, rfl⟩ := hgo.cons
    cases h1 with
    | step ht hg1 h1 =>
      cases h2 with
      | step hw hg2 h2 =>
        obtain ⟨rfl, rfl⟩ := hg1.det hg2
        obtain ⟨s1', hg3, hag, hout⟩ := hgo.agree h3 ht
        obtain ⟨rfl, rfl⟩ := hg1.det hg3
        have := h.moved (i := i) (k := M.pos i) (s := M.at_ i) (t := t') (p := .busy w _ (M.pos i)) hP
          (fun x hx => ?_) (by rw [put_self]; exact hq) (.busy h1 h2 hag h4 h5 h6 h7 h8 h9) (fun _ _ _ hq => by rw [put_self]; exact hq) fun j x hj hx => ?_
        · rwa [put_self] at this
        · have hx' : ¬ M.Lost D x := fun hl => hx ((lost_iff M D i x).1 hl)
          rw [Wr.go_keeps (Wr.writes_regs h3.regs h3.gs hw) hgo fun hG => hx (.inl (h6 x hG))]
          exact h.mem x hx'
        · exact hout x fun hF => hj (hP.apart _ _ _ _ _ hrun hx (h4 x hF))

/-- A snippet is over. -/
theorem SquadSim.leave (hP : P.TeamRespects D g keep M0) (h : SquadSim D g keep Q M N) {i : ι} {k' : κ} {w : Code}
    (hk : N.pos i = .busy w [] k') : SquadSim D g keep Q M (N.put i (.own k') (N.at_ i)) := by
  obtain ⟨b, hq, hg⟩ := h.thr i
  rw [hk] at hg
  have hpt := hg.point
  simp only [Stand.point] at hpt
  subst hpt
  cases hg with
  | @busy _ _ s1 s2 F G h1 h2 h3 h4 h5 h6 h7 h8 h9 =>
    cases h1
    have := h.moved (i := i) (k := M.pos i) (s := M.at_ i) (t := N.at_ i) (p := .own (M.pos i)) hP
      (fun x hx => ?_) (by rw [put_self]; exact hq) (.own ⟨fun r hr => ?_, fun hf => ?_, ?_, fun _ h => absurd trivial h⟩
        (h8.keep h3.gs fun x hx => h3.mem x (h5 x (recorded_foot hx))) ?_) (fun _ _ _ hq => by rw [put_self]; exact hq) fun _ _ _ _ => rfl
    · rwa [put_self] at this
    · exact h.mem x fun hl => hx ((lost_iff M D i x).1 hl)
    · rw [h3.regs]; exact h7.regs r hr
    · rw [h3.flags]; exact h7.flags hf
    · rw [h3.gs]; exact h7.gs
    · exact h9.keep (fun r _ => by rw [h3.regs]) fun x hx => h3.mem x (h5 x (scratch_region hx))

omit [DecidableEq ι] in
/-- Snippets are not killed. -/
theorem SquadSim.no_trap (h : SquadSim D g keep Q M N) {i : ι} {k' : κ} {w r : Code} {ins : Instr} {t' : State}
    (hk : N.pos i = .busy w (ins :: r) k') (hx : exec ins (N.at_ i) = .trap t') : False := by
  obtain ⟨b, hq, hg⟩ := h.thr i
  rw [hk] at hg
  obtain rfl := exec_trap hx
  generalize M.pos i = k at hg
  cases hg with
  | busy h1 => cases h1 with | step _ hg _ => exact go_illegal _ _ hg

/-- They come to an end. -/
theorem SquadSim.finish (hP : P.TeamRespects D g keep M0) {tr : List (ι × L)} (hrun : SquadRun P M0 tr M) {i : ι}
    {k' : κ} {F : W → Prop} {w r : Code} {s1 s2 : State} {e : Code} (hp : Path F w r s1 e s2) :
    ∀ {N : Squad ι (Stand κ)}, e = [] → SquadSim D g keep Q M N → N.pos i = .busy w r k' → AgreeOn F s1 (N.at_ i) →
      ∃ N', Alone P i N N' ∧ SquadSim D g keep Q M N' ∧ N'.pos i = .own k' ∧ ∀ j, j ≠ i → N'.pos j = N.pos j := by
  induction hp with
  | refl =>
    intro N he h hk _
    subst he
    exact ⟨_, .step (.leave hk) (.refl _), h.leave hP hk, put_pos _ _ _ _, fun j hj => put_pos_ne _ hj _ _⟩
  | step ht hg _ ih =>
    intro N he h hk ha
    obtain ⟨t1, hgo, ha'⟩ := hg.rev ha ht
    obtain ⟨N', h1, h2, h3, h4⟩ := ih he (h.instr hP hrun hk hgo) (put_pos _ _ _ _) (by rw [put_at]; exact ha')
    exact ⟨N', .step (.instr hk hgo) h1, h2, h3, fun j hj => (h4 j hj).trans (put_pos_ne _ hj _ _)⟩

theorem SquadSim.done (hP : P.TeamRespects D g keep M0) {tr : List (ι × L)} (hrun : SquadRun P M0 tr M)
    (h : SquadSim D g keep Q M N) (i : ι) : ∃ N', Alone P i N N' ∧ SquadSim D g keep Q M N' ∧
      N'.pos i = .own (N.pos i).point ∧ ∀ j, j ≠ i → N'.pos j = N.pos j := by
  obtain ⟨b, hq, hg⟩ := h.thr i
  generalize hp : N.pos i = p at hg
  generalize hm : M.pos i = m at hg
  cases hg with
  | own => exact ⟨N, .refl N, h, hp, fun _ _ => rfl⟩
  | busy h1 _ h3 => exact h.finish hP hrun h1 rfl hp h3

theorem Alone.run {tr : List (ι × L)} {i : ι} {N' : Squad ι (Stand κ)} (h : Alone P i N N') :
    ArmedSquad P M0 tr (some N) → ArmedSquad P M0 tr (some N') := by
  induction h with
  | refl => exact id
  | step hs _ ih =>
    intro hr
    have := hr.step hs
    rw [List.map_nil, List.append_nil] at this
    exact ih this

theorem SquadSim.start (hH : P.TeamAccounts D g keep M0 Q) (hr : ∀ i, Recorded (g i) [] (M0.at_ i))
    (hf : ∀ i, (D i).frame (M0.pos i) = none) : SquadSim D g keep Q M0 M0.arm where
  mem _ _ := rfl
  thr i := by
    refine ⟨{}, hH.start i, .own ⟨fun _ _ => rfl, fun _ => rfl, rfl, fun _ _ => rfl⟩ (hr i) ?_⟩
    rw [hf i]; exact .out

/-- What the original does, the instrumented program does. -/
theorem SquadRun.forth (hP : P.TeamRespects D g keep M0) (hH : P.TeamAccounts D g keep M0 Q)
    (hr : ∀ i, Recorded (g i) [] (M0.at_ i)) (hf : ∀ i, (D i).frame (M0.pos i) = none) {tr : List (ι × L)}
    (h : SquadRun P M0 tr M) : ∃ N, ArmedSquad P M0 tr (some N) ∧ (∀ i, N.pos i = .own (M.pos i)) ∧
      SquadSim D g keep Q M N := by
  induction h with
  | start => exact ⟨_, .start, fun _ => rfl, SquadSim.start hH hr hf⟩
  | @step tr M i ls k' s' h hs ih =>
    obtain ⟨N, hn, hpos, hsim⟩ := ih
    cases hs with
    | own hs =>
      obtain ⟨_, b, _, hsm⟩ := hsim.sim (hpos i)
      obtain ⟨t', ht, hnr⟩ := hP.forth _ _ _ _ _ _ _ h hsm.same hs
      refine ⟨_, hn.step (.own (hpos i) ht), fun j => ?_, hsim.owned hP hH h (hpos i) hs ht hnr⟩
      by_cases e : j = i
      · subst e; rw [put_pos, put_pos]
      · rw [put_pos_ne _ e, put_pos_ne _ e, hpos]
    | pass hx =>
      have hsim1 := hsim.entered hP hH h (hpos i) hx
      have hrun1 := h.step (i := i) (.pass hx)
      obtain ⟨N', h1, h2, h3, h4⟩ := hsim1.done hP hrun1 i
      refine ⟨N', h1.run (hn.step (.enter (hpos i) hx)), fun j => ?_, h2⟩
      by_cases e : j = i
      · subst e; rw [h3, put_pos, put_pos]; rfl
      · rw [h4 j e, put_pos_ne _ e, put_pos_ne _ e, hpos]

/-- What the instrumented program does, the original does; and it is not killed. -/
theorem ArmedSquad.back (hP : P.TeamRespects D g keep M0) (hH : P.TeamAccounts D g keep M0 Q)
    (hr : ∀ i, Recorded (g i) [] (M0.at_ i)) (hf : ∀ i, (D i).frame (M0.pos i) = none) {tr : List (ι × L)}
    {c : Option (Squad ι (Stand κ))} (h : ArmedSquad P M0 tr c) :
    ∃ M N, c = some N ∧ SquadRun P M0 tr M ∧ SquadSim D g keep Q M N := by
  induction h with
  | start => exact ⟨M0, _, rfl, .start, SquadSim.start hH hr hf⟩
  | @step tr N i ls c _ hs ih =>
    obtain ⟨M, N', e, hrun, hsim⟩ := ih
    cases e
    have same : tr ++ ([] : List L).map (Prod.mk i) = tr := by simp
    cases hs with
    | own hk ht =>
      obtain ⟨rfl, b, _, hsm⟩ := hsim.sim hk
      obtain ⟨s', hs, hnr⟩ := hP.back _ _ _ _ _ _ _ hrun hsm.same ht
      exact ⟨_, _, rfl, hrun.step (.own hs), hsim.owned hP hH hrun hk hs ht hnr⟩
    | enter hk hx =>
      obtain ⟨rfl, _⟩ := hsim.sim hk
      exact ⟨_, _, rfl, hrun.step (.pass hx), hsim.entered hP hH hrun hk hx⟩
    | instr hk hgo => exact ⟨M, _, rfl, by rw [same]; exact hrun, hsim.instr hP hrun hk hgo⟩
    | leave hk => exact ⟨M, _, rfl, by rw [same]; exact hrun, hsim.leave hP hk⟩
    | trap hk hx => exact (hsim.no_trap hk hx).elim

/-- **C108.** A program with any number of threads does the same after instrumentation as before, under every
schedule, if its threads return to where they were called from, do not look at what the snippets change, and
leave alone what the others use for their snippets. -/
theorem C108_same_behaviour (hP : P.TeamRespects D g keep M0) (hH : P.TeamHonest D g keep M0)
    (hr : ∀ i, Recorded (g i) [] (M0.at_ i)) (hf : ∀ i, (D i).frame (M0.pos i) = none) :
    P.TeamRefines D M0 := by
  obtain ⟨Q, hH⟩ := hH
  refine ⟨fun tr M h => ?_, fun tr N h => ?_, fun tr h => ?_, fun tr M N i k hrun hk hm hs ls k' => ?_, fun tr N i h => ?_⟩
  · obtain ⟨N, h1, h2, h3⟩ := h.forth hP hH hr hf
    refine ⟨N, h1, fun i => ⟨h2 i, ?_⟩⟩
    obtain ⟨_, _, _, hsm⟩ := h3.sim (h2 i)
    exact hsm.same
  · obtain ⟨M, _, e, hrun, hsim⟩ := h.back hP hH hr hf
    cases e
    refine ⟨M, hrun, fun i => ⟨?_, fun k hk => ?_⟩⟩
    · obtain ⟨_, _, hg⟩ := hsim.thr i
      exact hg.point
    · obtain ⟨_, _, _, hsm⟩ := hsim.sim hk
      exact hsm.same
  · obtain ⟨_, _, e, _⟩ := h.back hP hH hr hf
    cases e
  · subst hm
    constructor
    · rintro ⟨s', hb⟩
      cases hb with
      | own hb =>
        obtain ⟨t', ht, _⟩ := hP.forth _ _ _ _ _ _ _ hrun hs hb
        exact ⟨_, .own hk ht, by rw [put_pos]; rfl⟩
      | pass hx => exact ⟨_, .enter hk hx, by rw [put_pos]; rfl⟩
    · rintro ⟨N', hn, hp⟩
      cases hn with
      | own hk' ht =>
        rw [hk] at hk'; cases hk'
        rw [put_pos] at hp
        cases hp
        obtain ⟨s', hs', _⟩ := hP.back _ _ _ _ _ _ _ hrun hs ht
        exact ⟨s', .own hs'⟩
      | enter hk' hx =>
        rw [hk] at hk'; cases hk'
        rw [put_pos] at hp
        cases hp
        exact ⟨_, .pass hx⟩
      | instr hk' => rw [hk] at hk'; cases hk'
      | leave hk' => rw [hk] at hk'; cases hk'
  · obtain ⟨M, _, e, hrun, hsim⟩ := h.back hP hH hr hf
    cases e
    obtain ⟨N', h1, _, h3, _⟩ := hsim.done hP hrun i
    exact ⟨N', h1, h3⟩

end

end Verif
