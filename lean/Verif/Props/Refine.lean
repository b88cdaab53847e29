import Verif.Refine

/-! C103: the instrumented program does what the original does. -/

namespace Verif

variable {κ L : Type}

/-- The frame register and the saved copy of its value. -/
inductive LeafOk (g : W) (s t : State) : Option Reg → Option W → Prop
  | out : LeafOk g s t none none
  | inside {r : Reg} {v : W} : t.regs r = v → t.mem.read64 (g + 8) = s.regs r →
      LeafOk g s t (some r) (some v)

/-- How the original in state `s` and the instrumented program in state `t` correspond. -/
structure Sim (D : Blind κ) (g : W) (b : Book) (k : κ) (s t : State) : Prop where
  same : D.Same k s t
  held : Recorded g b.pend t
  leaf : LeafOk g s t (D.frame k) b.leaf

theorem Near.rfl' (X : Reg → Prop) (F : Prop) (A : W → Prop) (s : State) : Near X F A s s :=
  ⟨fun _ _ => rfl, fun _ => rfl, rfl, fun _ _ => rfl⟩

theorem Near.symm {X : Reg → Prop} {F : Prop} {A : W → Prop} {s t : State} (h : Near X F A s t) :
    Near X F A t s :=
  ⟨fun r hr => (h.regs r hr).symm, fun hf => (h.flags hf).symm, h.gs.symm,
    fun a ha => (h.mem a ha).symm⟩

variable {P : Guest κ L} {D : Blind κ} {g : W} {k0 : κ} {s0 : State}

theorem Guest.Respects.same_rsp (hP : P.Respects D g k0 s0) {k : κ} {s t : State} (h : D.Same k s t) :
    t.regs .rsp = s.regs .rsp := h.regs _ (hP.rsp k)

/-- A step of the program itself. -/
theorem Sim.own (hP : P.Respects D g k0 s0) {tr : List L} {b : Book} {k k' : κ} {s t s' : State} {l : L}
    (hb : BareRun P k0 s0 tr k s) (h : Sim D g b k s t) (hs : P.step k s l k' s') :
    ∃ t', P.step k t l k' t' ∧ Sim D g b k' s' t' := by
  obtain ⟨t', ht, hn⟩ := hP.forth tr k s t l k' s' hb h.same hs
  obtain ⟨g1, m1, r1, f1⟩ := hP.spares _ _ _ _ _ _ _ hb h.same ht
  obtain ⟨_, _, r2, _⟩ := hP.spares _ _ _ _ _ _ _ hb (Near.rfl' _ _ _ _) hs
  refine ⟨t', ht, hn, h.held.keep g1 fun x hx => m1 x ?_, ?_⟩
  · rcases hx with hx | hx
    · exact inRange_sub hx (by rw [BitVec.sub_self]; decide)
    · refine inRange_sub hx ?_
      have : g + 16 - g = 16#64 := by bv_omega
      rw [this]; decide
  · have hl := h.leaf
    rw [f1]
    generalize hF : D.frame k = F at hl ⊢
    generalize b.leaf = lf at hl ⊢
    cases hl with
    | out => exact .out
    | inside e1 e2 =>
      refine .inside ((r1 _ hF).trans e1) ?_
      rw [r2 _ hF, ← e2]
      refine read64_eq _ _ _ fun x hx => m1 x (inRange_sub hx ?_)
      have : g + 8 - g = 8#64 := by bv_omega
      rw [this]; decide

/-- ... seen from the instrumented program. -/
theorem Sim.own_back (hP : P.Respects D g k0 s0) {tr : List L} {b : Book} {k k' : κ} {s t t' : State} {l : L}
    (hb : BareRun P k0 s0 tr k s) (h : Sim D g b k s t) (ht : P.step k t l k' t') :
    ∃ s', P.step k s l k' s' ∧ Sim D g b k' s' t' := by
  obtain ⟨s', hs, hn⟩ := hP.back tr k s t l k' t' hb h.same ht
  obtain ⟨g1, m1, r1, f1⟩ := hP.spares _ _ _ _ _ _ _ hb h.same ht
  obtain ⟨_, _, r2, _⟩ := hP.spares _ _ _ _ _ _ _ hb (Near.rfl' _ _ _ _) hs
  refine ⟨s', hs, hn, h.held.keep g1 fun x hx => m1 x ?_, ?_⟩
  · rcases hx with hx | hx
    · exact inRange_sub hx (by rw [BitVec.sub_self]; decide)
    · refine inRange_sub hx ?_
      have : g + 16 - g = 16#64 := by bv_omega
      rw [this]; decide
  · have hl := h.leaf
    rw [f1]
    generalize hF : D.frame k = F at hl ⊢
    generalize b.leaf = lf at hl ⊢
    cases hl with
    | out => exact .out
    | inside e1 e2 =>
      refine .inside ((r1 _ hF).trans e1) ?_
      rw [r2 _ hF, ← e2]
      refine read64_eq _ _ _ fun x hx => m1 x (inRange_sub hx ?_)
      have : g + 8 - g = 8#64 := by bv_omega
      rw [this]; decide

/-- The program cannot see what a snippet has changed. -/
theorem Site.Fits.same (hP : P.Respects D g k0 s0) {k k' : κ} {x : Site} {s t t' : State}
    (hf : x.Fits D g k k' s) (h : D.Same k s t) {areas : List (W × Nat)}
    (hx : SameExcept x.free areas t t') (hfr : D.frame k' = D.frame k)
    (hfl : ¬ x.checks → t'.flags = t.flags)
    (ha : ∀ p ∈ areas, ∀ a, InRange a p.1 p.2 → InRange a g regionSize ∨
      InRange a (s.regs .rsp - BitVec.ofNat 64 x.below) x.below) : D.Same k' s t' := by
  refine ⟨fun r hr => ?_, fun hF => ?_, hx.gs.trans h.gs, fun a hA => ?_⟩
  · have h1 : ¬ D.hides k r := by
      rintro (h1 | h1)
      · exact hr (.inl (hf.regs r (.inl h1)))
      · exact hr (.inr (hfr.trans h1))
    have h2 : ¬ x.free r := fun h2 => hr (.inl (hf.regs r (.inr h2)))
    rw [hx.regs r h2, h.regs r h1]
  · rw [hfl fun h1 => hF (hf.flags (.inr h1)), h.flags fun h1 => hF (hf.flags (.inl h1))]
  · have h1 : ¬ D.mem k (s.regs .rsp) a := fun h1 => hA (hf.mem a (.inl h1))
    rw [hx.mem a ?_, h.mem a h1]
    intro p hp hin
    rcases ha p hp a hin with h2 | h2
    · exact hA (hP.region _ _ _ h2)
    · exact hA (hf.mem a (.inr h2))

/-- The snippets find the return address where the original has it. -/
theorem Site.Fits.read (hP : P.Respects D g k0 s0) {k k' : κ} {x : Site} {s t : State}
    (hf : x.Fits D g k k' s) (h : D.Same k s t) :
    x.word t = x.word s ∧ t.mem.read64 (x.word s) = s.mem.read64 (x.word s) := by
  have hr := hP.same_rsp h
  refine ⟨?_, read64_eq _ _ _ fun a ha => h.mem a (hf.visible a ha)⟩
  cases x <;> simp [Site.word, State.retAddr, hr]

theorem Site.Fits.apart' (hP : P.Respects D g k0 s0) {k k' : κ} {x : Site} {s t : State}
    (hf : x.Fits D g k k' s) (h : D.Same k s t) : Apart g (x.word t) x.below t := by
  obtain ⟨h1, h2, h3⟩ := hf.apart
  rw [(hf.read hP h).1]
  have hr := hP.same_rsp h
  exact ⟨h1, by rw [hr]; exact h2, by rw [hr]; exact h3⟩

theorem slot_region {g : W} {l : List W} {t : State} (h : Recorded g l t)
    (hroom : 32 + 8 * l.length + 8 ≤ regionSize) {a : W} (ha : InRange a t.shadow 8) :
    InRange a g regionSize := by
  have hr : regionSize = 8388608 := rfl
  rw [h.pointer] at ha
  exact inRange_sub ha (by rw [off_toNat (by omega)]; omega)

theorem word_region {g : W} {a : W} (ha : InRange a g 8) : InRange a g regionSize :=
  inRange_sub ha (by rw [BitVec.sub_self]; decide)

theorem scratch_region {g : W} {a : W} (ha : InRange a (g + 8) 8) : InRange a g regionSize := by
  refine inRange_sub ha ?_
  have : g + 8 - g = 8#64 := by bv_omega
  rw [this]; decide

/-- The scratch word survives pushes and checks. -/
theorem LeafOk.keep {s t t' : State} {F : Option Reg} {lf : Option W} (h : LeafOk g s t F lf)
    (hr : ∀ r, F = some r → t'.regs r = t.regs r)
    (hm : ∀ x, InRange x (g + 8) 8 → t'.mem x = t.mem x) : LeafOk g s t' F lf := by
  cases h with
  | out => exact .out
  | inside e1 e2 =>
    exact .inside ((hr _ rfl).trans e1) ((read64_eq _ _ _ fun x hx => hm x hx).trans e2)

/-- A snippet: it ends, and what it has done the original cannot see. -/
theorem Sim.snip (hP : P.Respects D g k0 s0) {b b' : Book} {k k' : κ} {s t : State} {x : Site}
    (h : Sim D g b k s t) (hf : x.Fits D g k k' s) (hb : x.Keeps s b b') :
    ∃ t', Exits x.code t t' ∧ Sim D g b' k' s t' := by
  obtain ⟨hw, hv⟩ := hf.read hP h.same
  have ha := hf.apart' hP h.same
  have hrsp := hP.same_rsp h.same
  have hgs := h.held.gs
  cases hb with
  | @push c d n free b hroom =>
    obtain ⟨hfr, hnf⟩ := hf.frames
    have hv' : t.mem.read64 (t.retAddr d) = s.mem.read64 (s.retAddr d) := by
      rw [show t.retAddr d = s.retAddr d from hw]; exact hv
    obtain ⟨t', hx, hp⟩ := IsPush.run hf.emitted (h.held.pushSep ha hroom)
    refine ⟨t', hx, ?_, ?_, ?_⟩
    · refine hf.same hP h.same hp.same hfr (fun _ => hp.flags) ?_
      intro p hpm a hin
      simp only [List.mem_cons, List.not_mem_nil, or_false] at hpm
      rcases hpm with rfl | rfl | rfl
      · exact .inl (slot_region h.held hroom hin)
      · rw [hgs] at hin; exact .inl (word_region hin)
      · rw [hrsp] at hin; exact .inr hin
    · have := h.held.push ha hroom hp
      rw [← hv']; exact this
    · rw [hfr]
      refine h.leaf.keep (fun r e => hp.same.regs r (hnf r e)) fun a hin => hp.same.mem a ?_
      intro p hpm hin'
      simp only [List.mem_cons, List.not_mem_nil, or_false] at hpm
      rcases hpm with rfl | rfl | rfl
      · rw [h.held.pointer] at hin'
        have hr : regionSize = 8388608 := rfl
        exact sep_not_inRange (sep_offsets g (a := 8) (n := 8) (m := 8) (by decide) hroom
          (Or.inl (by omega)) (by decide) (by decide)) hin hin'
      · rw [hgs] at hin'
        have := sep_offsets g (a := 8) (n := 8) (b := 0) (m := 8) (by decide) (by decide)
          (Or.inr (by decide)) (by decide) (by decide)
        rw [gs_zero] at this
        exact sep_not_inRange this hin hin'
      · exact sep_not_inRange (sep_in (a := 8) (n := 8) ha.save (by decide)) hin hin'
  | @check c d n free b post hfi =>
    obtain ⟨hfr, hnf⟩ := hf.frames
    have hv' : t.mem.read64 (t.regs .rsp + BitVec.ofInt 64 d) = s.mem.read64 (s.retAddr d) := by
      rw [show t.regs .rsp + BitVec.ofInt 64 d = s.retAddr d from hw]; exact hv
    obtain ⟨pre, e, hpre, hg⟩ := hfi.split
    have hrun := IsCheck.run hf.emitted h.held.holds (h.held.checkSep ha)
    have hsc : scan (t.mem.read64 (t.regs .rsp + BitVec.ofInt 64 d)) b.pend = some pre.length := by
      rw [hv', e]; exact scan_found hpre hg
    rw [hsc] at hrun
    obtain ⟨t', hx, hc⟩ := hrun
    have hlt : pre.length < b.pend.length := by rw [e]; simp
    have hd : b.pend.drop (pre.length + 1) = post := by rw [e]; simp
    refine ⟨t', hx, ?_, ?_, ?_⟩
    · refine hf.same hP h.same hc.same hfr (fun hn => absurd trivial hn) ?_
      intro p hpm a hin
      simp only [List.mem_cons, List.not_mem_nil, or_false] at hpm
      rcases hpm with rfl | rfl
      · rw [hgs] at hin; exact .inl (word_region hin)
      · rw [hrsp] at hin; exact .inr hin
    · have := h.held.check ha hlt hc
      rwa [hd] at this
    · rw [hfr]
      refine h.leaf.keep (fun r e => hc.same.regs r (hnf r e)) fun a hin => hc.same.mem a ?_
      intro p hpm hin'
      simp only [List.mem_cons, List.not_mem_nil, or_false] at hpm
      rcases hpm with rfl | rfl
      · rw [hgs] at hin'
        have := sep_offsets g (a := 8) (n := 8) (b := 0) (m := 8) (by decide) (by decide)
          (Or.inr (by decide)) (by decide) (by decide)
        rw [gs_zero] at this
        exact sep_not_inRange this hin hin'
      · exact sep_not_inRange (sep_in (a := 8) (n := 8) ha.save (by decide)) hin hin'
  | @save c r d p =>
    obtain ⟨hf0, hnr, hf1⟩ := hf.frames
    have hv' : t.mem.read64 (t.regs .rsp + BitVec.ofInt 64 d) = s.mem.read64 (s.retAddr d) := by
      rw [show t.regs .rsp + BitVec.ofInt 64 d = s.retAddr d from hw]; exact hv
    have hvis : t.regs r = s.regs r := by
      refine h.same.regs r ?_
      rintro (h1 | h1)
      · exact hnr h1
      · rw [hf0] at h1; cases h1
    refine ⟨_, IsRegPush.run hf.emitted (Apart.enter hgs ha.ret), ?_, h.held.regPushed r d, ?_⟩
    · refine ⟨fun r' hr' => ?_, fun hF => ?_, h.same.gs, fun a hA => ?_⟩
      · have hne : r' ≠ r := fun e => hr' (.inr (by rw [hf1, e]))
        have hn1 : ¬ D.hides k r' := by
          rintro (h1 | h1)
          · exact hr' (.inl (hf.regs r' (.inl h1)))
          · rw [hf0] at h1; cases h1
        show (if r' = r then _ else t.regs r') = _
        rw [if_neg hne]; exact h.same.regs r' hn1
      · exact h.same.flags fun h1 => hF (hf.flags (.inl h1))
      · have h1 : ¬ D.mem k (s.regs .rsp) a := fun h1 => hA (hf.mem a (.inl h1))
        show t.mem.write64 (t.gs + 8) _ a = _
        rw [write64_outRange _ _ _ _ ?_, h.same.mem a h1]
        rw [hgs]
        exact fun hin => hA (hP.region _ _ _ (scratch_region hin))
    · rw [hf1]
      refine .inside ?_ ?_
      · show (if r = r then _ else _) = _
        rw [if_pos rfl]; exact hv'
      · show (t.mem.write64 (t.gs + 8) (t.regs r)).read64 (g + 8) = _
        rw [hgs, read64_write64, hvis]
  | @compare c r p =>
    obtain ⟨hf0, hf1⟩ := hf.frames
    have hl := h.leaf
    rw [hf0] at hl
    cases hl with
    | inside e1 e2 =>
      have hv' : t.mem.read64 (t.regs .rsp) = t.regs r := by
        rw [e1, show t.regs .rsp = s.regs .rsp from hw]; exact hv
      refine ⟨_, IsRegPop.run hf.emitted hv', ?_, h.held.keep rfl fun _ _ => rfl, ?_⟩
      · refine ⟨fun r' hr' => ?_, fun hF => ?_, h.same.gs, fun a hA => ?_⟩
        · show (if r' = r then _ else t.regs r') = _
          by_cases hne : r' = r
          · rw [if_pos hne, hgs, e2, hne]
          · rw [if_neg hne]
            refine h.same.regs r' ?_
            rintro (h1 | h1)
            · exact hr' (.inl (hf.regs r' (.inl h1)))
            · rw [hf0] at h1; exact hne (Option.some.inj h1).symm
        · exact absurd (hf.flags (.inr trivial)) hF
        · exact h.same.mem a fun h1 => hA (hf.mem a (.inl h1))
      · rw [hf1]; exact .out

theorem Sim.start (hr : Recorded g [] s0) (hf : D.frame k0 = none) : Sim D g {} k0 s0 s0 :=
  ⟨Near.rfl' _ _ _ _, hr, by rw [hf]; exact .out⟩

/-- What the original does, the instrumented program does. -/
theorem BareRun.forth (hP : P.Respects D g k0 s0) {Q : Book → κ → State → Prop}
    (hH : P.Accounts D g k0 s0 Q) (hr : Recorded g [] s0)
    (hf : D.frame k0 = none) {tr : List L} {k : κ} {s : State} (h : BareRun P k0 s0 tr k s) :
    ∃ b t, Q b k s ∧ ArmedRun P k0 s0 tr (.run k t) ∧ Sim D g b k s t := by
  induction h with
  | start => exact ⟨{}, s0, hH.start, .start, Sim.start hr hf⟩
  | step h hs ih =>
    obtain ⟨b, t, hb, ht, hsim⟩ := ih
    cases hs with
    | own hs =>
      obtain ⟨t', hs', hsim'⟩ := hsim.own hP h hs
      exact ⟨b, t', hH.own _ _ _ _ _ _ _ h hb hs, ht.step (.own hs'), hsim'⟩
    | pass hx =>
      obtain ⟨x, b', rfl, hfit, hk, hb'⟩ := hH.pass _ _ _ _ _ _ h hb hx
      obtain ⟨t', hs', hsim'⟩ := hsim.snip hP hfit hk
      exact ⟨b', t', hb', ht.step (.snip hx hs'), hsim'⟩

/-- What the instrumented program does, the original does; and it is not killed. -/
theorem ArmedRun.back (hP : P.Respects D g k0 s0) {Q : Book → κ → State → Prop}
    (hH : P.Accounts D g k0 s0 Q) (hr : Recorded g [] s0)
    (hf : D.frame k0 = none) {tr : List L} {c : Inst κ} (h : ArmedRun P k0 s0 tr c) :
    ∃ k t s b, c = .run k t ∧ BareRun P k0 s0 tr k s ∧ Q b k s ∧ Sim D g b k s t := by
  induction h with
  | start => exact ⟨k0, s0, s0, {}, rfl, .start, hH.start, Sim.start hr hf⟩
  | step _ hs ih =>
    obtain ⟨k, t, s, b, rfl, hn, hb, hsim⟩ := ih
    cases hs with
    | own hs =>
      obtain ⟨s', hs', hsim'⟩ := hsim.own_back hP hn hs
      exact ⟨_, _, s', b, rfl, hn.step (.own hs'), hH.own _ _ _ _ _ _ _ hn hb hs', hsim'⟩
    | snip hx he =>
      obtain ⟨x, b', rfl, hfit, hk, hb'⟩ := hH.pass _ _ _ _ _ _ hn hb hx
      obtain ⟨t', he', hsim'⟩ := hsim.snip hP hfit hk
      obtain rfl := he.det he'
      exact ⟨_, _, s, b', rfl, hn.step (.pass hx), hb', hsim'⟩
    | trap hx he =>
      obtain ⟨x, b', rfl, hfit, hk, hb'⟩ := hH.pass _ _ _ _ _ _ hn hb hx
      obtain ⟨t', he', _⟩ := hsim.snip hP hfit hk
      exact (he'.not_traps he).elim

/-- C103: a program which returns to where it was called from, and which does not look at what the
snippets change, does the same after instrumentation as before. -/
theorem C103_same_behaviour (hP : P.Respects D g k0 s0) (hH : P.Honest D g k0 s0)
    (hr : Recorded g [] s0) (hf : D.frame k0 = none) : P.Refines D k0 s0 := by
  obtain ⟨Q, hH⟩ := hH
  refine ⟨fun tr k s h => ?_, fun tr k t h => ?_, fun tr h => ?_, fun tr k s t hs0 ht hst ls k' => ?_⟩
  · obtain ⟨b, t, hb, ht, hsim⟩ := h.forth hP hH hr hf
    exact ⟨t, ht, hsim.same⟩
  · obtain ⟨k', t', s, b, e, hn, _, hsim⟩ := h.back hP hH hr hf
    cases e
    exact ⟨s, hn, hsim.same⟩
  · obtain ⟨_, _, _, _, e, _⟩ := h.back hP hH hr hf
    cases e
  · obtain ⟨k1, t1, s1, b, e, hn, hb, hsim⟩ := ht.back hP hH hr hf
    cases e
    constructor
    · rintro ⟨s', hs⟩
      cases hs with
      | own hs =>
        obtain ⟨t', ht', _⟩ := hP.forth _ _ _ _ _ _ _ hs0 hst hs
        exact ⟨t', .own ht'⟩
      | pass hx =>
        obtain ⟨x, b', rfl, hfit, hk, _⟩ := hH.pass _ _ _ _ _ _ hn hb hx
        obtain ⟨t', he', _⟩ := hsim.snip hP hfit hk
        exact ⟨t', .snip hx he'⟩
    · rintro ⟨t', ht'⟩
      cases ht' with
      | own hs =>
        obtain ⟨s', hs', _⟩ := hP.back _ _ _ _ _ _ _ hs0 hst hs
        exact ⟨s', .own hs'⟩
      | snip hx _ => exact ⟨s, .pass hx⟩

end Verif
