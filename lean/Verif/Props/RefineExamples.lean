import Verif.Props.Refine
import Verif.Props.SignalExamples

/-! C103: a program with both kinds of frames, and three which the snippets disturb. -/

namespace Verif

/-! ## A program -/

/-- Control points of a function which calls a leaf function until it has done so three times. -/
inductive DemoPt
  | enter | body | leaf | inside | out | back | again | leave | gone | done

/-- Its instructions.  The outside world sees a number at each step. -/
def demoStep : DemoPt → State → Option (W × DemoPt × State)
  | .body, s => if 0x6100 ≤ (s.regs .rsp).toNat ∧ (s.regs .rsp).toNat ≤ 0x7000 then
      some (s.flags, .leaf, { s.set .rsp (s.regs .rsp - 8) with
        mem := s.mem.write64 (s.regs .rsp - 8) 0x402000 })
    else none
  | .inside, s => some (s.regs .rbx + s.flags, .out, s.set .rbx (s.regs .rbx + 1))
  | .back, s => if (s.regs .rsp).toNat ≤ 0x7000 then some (0, .again, s.set .rsp (s.regs .rsp + 8))
    else none
  | .again, s => some (s.regs .rax, if s.regs .rbx = 3 then .leave else .body,
      { s with flags := s.regs .rbx })
  | .gone, s => some (s.regs .rbx, .done, s)
  | _, _ => none

/-- The registers which the snippets of the example may clobber: none. -/
def demoFree : Reg → Prop := ScratchFree {} [] none

/-- The program with its snippets. -/
def demoGuest : Guest DemoPt W where
  step k s l k' s' := demoStep k s = some (l, k', s')
  site
    | .enter => some (demoPush, .body)
    | .leaf => some (leafPush, .inside)
    | .out => some (leafPop, .back)
    | .leave => some (demoCheck, .gone)
    | _ => none

/-- What it does not look at: the flags after checks, the bytes below the stack pointer, and rax in the
leaf function. -/
def demoBlind : Blind DemoPt where
  regs _ _ := False
  flags
    | .back | .again | .gone | .done => True
    | _ => False
  mem _ sp x := InRange x sigBase regionSize ∨ 0x6000 ≤ x.toNat ∧ x.toNat < sp.toNat
  frame
    | .inside | .out => some .rax
    | _ => none

theorem demoFree_none (r : Reg) : ¬ demoFree r := by
  intro h; exact absurd h.1 (by decide)

theorem demoPush_is : IsPush demoPush 0 16 demoFree :=
  ⟨{}, none, false, 0, false, 0, 0, none, ⟨by decide, by decide, rfl⟩, rfl,
    ⟨by simp, by simp⟩, rfl, rfl, rfl, rfl⟩

theorem demoCheck_is : IsCheck demoCheck 0 16 demoFree :=
  ⟨{}, none, false, 0, 0, none, ⟨by decide, by decide, rfl⟩, rfl, ⟨by simp, by simp⟩, rfl, rfl, rfl, rfl⟩

theorem demo_rsp (k : DemoPt) : ¬ demoBlind.hides k .rsp := by
  rintro (h | h)
  · exact h
  · cases k <;> simp [demoBlind] at h

theorem demo_spares {k k' : DemoPt} {s s' : State} {l : W} (h : demoGuest.step k s l k' s') :
    s'.gs = s.gs ∧ (∀ x, InRange x sigBase regionSize → s'.mem x = s.mem x) ∧
    (∀ r, demoBlind.frame k = some r → s'.regs r = s.regs r) ∧ demoBlind.frame k' = demoBlind.frame k := by
  have h : demoStep k s = some (l, k', s') := h
  cases k <;> simp only [demoStep, reduceCtorEq] at h
  case body =>
    split at h
    · next hg =>
      simp only [Option.some.injEq, Prod.mk.injEq] at h
      obtain ⟨_, rfl, rfl⟩ := h
      refine ⟨rfl, fun x hx => ?_, fun r hr => by simp [demoBlind] at hr, rfl⟩
      refine write64_outRange _ _ _ _ fun hw => ?_
      unfold InRange sigBase regionSize at *
      bv_omega
    · cases h
  case inside =>
    simp only [Option.some.injEq, Prod.mk.injEq] at h
    obtain ⟨_, rfl, rfl⟩ := h
    refine ⟨rfl, fun x hx => rfl, fun r hr => ?_, rfl⟩
    simp only [demoBlind, Option.some.injEq] at hr
    subst hr; rfl
  case back =>
    split at h
    · simp only [Option.some.injEq, Prod.mk.injEq] at h
      obtain ⟨_, rfl, rfl⟩ := h
      exact ⟨rfl, fun x hx => rfl, fun r hr => by simp [demoBlind] at hr, rfl⟩
    · cases h
  case again =>
    simp only [Option.some.injEq, Prod.mk.injEq] at h
    obtain ⟨_, rfl, rfl⟩ := h
    refine ⟨rfl, fun x hx => rfl, fun r hr => by simp [demoBlind] at hr, ?_⟩
    split <;> rfl
  case gone =>
    simp only [Option.some.injEq, Prod.mk.injEq] at h
    obtain ⟨_, rfl, rfl⟩ := h
    exact ⟨rfl, fun x hx => rfl, fun r hr => by simp [demoBlind] at hr, rfl⟩

theorem demo_blind {k k' : DemoPt} {s t s' : State} {l : W} (hst : demoBlind.Same k s t)
    (h : demoGuest.step k s l k' s') : ∃ t', demoGuest.step k t l k' t' ∧ demoBlind.Same k' s' t' := by
  have h : demoStep k s = some (l, k', s') := h
  obtain ⟨hr, hf, hg, hm⟩ := hst
  cases k <;> simp only [demoStep, reduceCtorEq] at h
  case body =>
    have hr : ∀ r, t.regs r = s.regs r := fun r => hr r (by rintro (h | h) <;> simp [demoBlind] at h)
    have hf := hf (fun h => h)
    split at h
    · next hgd =>
      simp only [Option.some.injEq, Prod.mk.injEq] at h
      obtain ⟨rfl, rfl, rfl⟩ := h
      refine ⟨{ t.set .rsp (s.regs .rsp - 8) with mem := t.mem.write64 (s.regs .rsp - 8) 0x402000 }, ?_, ?_⟩
      · show demoStep .body t = _
        simp only [demoStep, hr, hf, if_pos hgd]
      · refine ⟨fun r _ => ?_, fun _ => hf, hg, fun a ha => ?_⟩
        · simp only [State.set, hr]
        · by_cases hi : InRange a (s.regs .rsp - 8) 8
          · simp only [Mem.write64]
            unfold InRange at hi
            rw [if_pos hi, if_pos hi]
          · show t.mem.write64 _ _ a = s.mem.write64 _ _ a
            rw [write64_outRange _ _ _ _ hi, write64_outRange _ _ _ _ hi]
            refine hm a fun hh => ha ?_
            rcases hh with hh | ⟨h1, h2⟩
            · exact .inl hh
            · refine .inr ⟨h1, ?_⟩
              simp only [State.set, if_true]
              unfold InRange at hi
              bv_omega
    · cases h
  case inside =>
    have hr' : ∀ r, r ≠ .rax → t.regs r = s.regs r := fun r hne => hr r (by
      rintro (h | h)
      · exact h
      · simp [demoBlind] at h; exact hne h.symm)
    have hf := hf (fun h => h)
    simp only [Option.some.injEq, Prod.mk.injEq] at h
    obtain ⟨rfl, rfl, rfl⟩ := h
    refine ⟨t.set .rbx (s.regs .rbx + 1), ?_, ?_⟩
    · show demoStep .inside t = _
      simp only [demoStep, hr' .rbx (by decide), hf]
    · refine ⟨fun r hh => ?_, fun _ => hf, hg, hm⟩
      have hne : r ≠ .rax := fun e => hh (.inr (by rw [e]; rfl))
      simp only [State.set, hr' r hne]
  case back =>
    have hr : ∀ r, t.regs r = s.regs r := fun r => hr r (by rintro (h | h) <;> simp [demoBlind] at h)
    split at h
    · next hgd =>
      simp only [Option.some.injEq, Prod.mk.injEq] at h
      obtain ⟨rfl, rfl, rfl⟩ := h
      refine ⟨t.set .rsp (s.regs .rsp + 8), ?_, ?_⟩
      · show demoStep .back t = _
        simp only [demoStep, hr, if_pos hgd]
      · refine ⟨fun r _ => by simp only [State.set, hr], fun hh => absurd trivial hh, hg, fun a ha => ?_⟩
        refine hm a fun hh => ha ?_
        rcases hh with hh | ⟨h1, h2⟩
        · exact .inl hh
        · refine .inr ⟨h1, ?_⟩
          simp only [State.set, if_true]
          bv_omega
    · cases h
  case again =>
    have hr : ∀ r, t.regs r = s.regs r := fun r => hr r (by rintro (h | h) <;> simp [demoBlind] at h)
    simp only [Option.some.injEq, Prod.mk.injEq] at h
    obtain ⟨rfl, rfl, rfl⟩ := h
    refine ⟨{ t with flags := s.regs .rbx }, ?_, ?_⟩
    · show demoStep .again t = _
      simp only [demoStep, hr]
    · exact ⟨fun r _ => hr r, fun _ => rfl, hg, hm⟩
  case gone =>
    have hr : ∀ r, t.regs r = s.regs r := fun r => hr r (by rintro (h | h) <;> simp [demoBlind] at h)
    simp only [Option.some.injEq, Prod.mk.injEq] at h
    obtain ⟨rfl, rfl, rfl⟩ := h
    refine ⟨t, ?_, ?_⟩
    · show demoStep .gone t = _
      simp only [demoStep, hr]
    · exact ⟨fun r _ => hr r, fun hh => absurd trivial hh, hg, hm⟩

theorem Blind.Same.swap {κ : Type} {D : Blind κ} {k : κ} {s t : State} (h0 : ¬ D.hides k .rsp)
    (h : D.Same k s t) : D.Same k t s := by
  have := h.symm
  unfold Blind.Same
  rw [h.regs .rsp h0]
  exact this

theorem demo_respects {k0 : DemoPt} {s0 : State} : demoGuest.Respects demoBlind sigBase k0 s0 where
  rsp := demo_rsp
  region _ _ _ h := .inl h
  spares _ _ _ _ _ _ _ _ _ h := demo_spares h
  forth _ _ _ _ _ _ _ _ hst h := demo_blind hst h
  back _ _ _ _ _ _ _ _ hst h := by
    obtain ⟨s', h1, h2⟩ := demo_blind (hst.swap (demo_rsp _)) h
    exact ⟨s', h1, h2.swap (demo_rsp _)⟩

/-- The state at the beginning. -/
def demo0 : LogState := ⟨[(.rsp, 0x7000), (.rax, 5), (.rbx, 0)], 0x246, sigBase,
  [(0x7000, 0x401000), (0x100000, 0x100020)]⟩

theorem demo0_recorded : Recorded sigBase [] demo0.state where
  gs := rfl
  pointer := cread_read (a := 0x100000) (l := demo0.log) (by decide)
  holds := ⟨fun i h => absurd h (Nat.not_lt_zero i), by decide +kernel⟩
  guard := cread_read (a := 0x100010) (l := demo0.log) (by decide)
  room := by decide

/-- Where the stack pointer is, what the stack holds and what has been announced. -/
def DemoInv (b : Book) (k : DemoPt) (s : State) : Prop :=
  s.mem.read64 0x7000 = 0x401000 ∧
  match k with
  | .enter => s.regs .rsp = 0x7000 ∧ b = ⟨[], none⟩
  | .body | .again | .leave => s.regs .rsp = 0x7000 ∧ b = ⟨[0x401000], none⟩
  | .leaf | .back => s.regs .rsp = 0x6ff8 ∧ s.mem.read64 0x6ff8 = 0x402000 ∧ b = ⟨[0x401000], none⟩
  | .inside | .out => s.regs .rsp = 0x6ff8 ∧ s.mem.read64 0x6ff8 = 0x402000 ∧
      b = ⟨[0x401000], some 0x402000⟩
  | .gone | .done => True

theorem demo_own {b : Book} {k k' : DemoPt} {s s' : State} {l : W} (ih : DemoInv b k s)
    (hs : demoGuest.step k s l k' s') : DemoInv b k' s' := by
  have h : demoStep k s = some (l, k', s') := hs
  obtain ⟨i1, i2⟩ := ih
  cases k <;> simp only [demoStep, reduceCtorEq] at h
  case body =>
    obtain ⟨i2, i3⟩ := i2
    split at h
    · simp only [Option.some.injEq, Prod.mk.injEq] at h
      obtain ⟨rfl, rfl, rfl⟩ := h
      refine ⟨?_, by show s.regs .rsp - 8 = _; rw [i2]; rfl, ?_, i3⟩
      · show (s.mem.write64 (s.regs .rsp - 8) _).read64 _ = _
        rw [i2, read64_write64_sep _ _ _ _ (sep_of_le (by decide) (by decide) (by decide)), i1]
      · show (s.mem.write64 (s.regs .rsp - 8) _).read64 _ = _
        rw [i2]; exact read64_write64 ..
    · cases h
  case inside =>
    simp only [Option.some.injEq, Prod.mk.injEq] at h
    obtain ⟨rfl, rfl, rfl⟩ := h
    exact ⟨i1, i2⟩
  case back =>
    obtain ⟨i2, i3, i4⟩ := i2
    split at h
    · simp only [Option.some.injEq, Prod.mk.injEq] at h
      obtain ⟨rfl, rfl, rfl⟩ := h
      exact ⟨i1, by show s.regs .rsp + 8 = _; rw [i2]; rfl, i4⟩
    · cases h
  case again =>
    simp only [Option.some.injEq, Prod.mk.injEq] at h
    obtain ⟨rfl, rfl, rfl⟩ := h
    refine ⟨i1, ?_⟩
    by_cases h3 : s.regs .rbx = 3
    · rw [if_pos h3]; exact i2
    · rw [if_neg h3]; exact i2
  case gone =>
    simp only [Option.some.injEq, Prod.mk.injEq] at h
    obtain ⟨rfl, rfl, rfl⟩ := h
    exact ⟨i1, i2⟩

theorem demo_visible {k : DemoPt} {s : State} {p : W} (h : s.regs .rsp = p) (h1 : 0x6000 ≤ p.toNat)
    (h2 : p.toNat ≤ 0x7000) (a : W) (ha : InRange a p 8) : ¬ demoBlind.mem k (s.regs .rsp) a := by
  rw [h]
  rintro (hb | hb)
  · unfold InRange sigBase regionSize at *
    bv_omega
  · unfold InRange at ha
    bv_omega

theorem demo_covered {k k' : DemoPt} {s : State} {p : W} {n : Nat} (h : s.regs .rsp = p)
    (h1 : 0x6100 ≤ p.toNat) (h2 : p.toNat ≤ 0x7000) (hn : n ≤ 16) (a : W)
    (ha : demoBlind.mem k (s.regs .rsp) a ∨ InRange a (s.regs .rsp - BitVec.ofNat 64 n) n) :
    demoBlind.mem k' (s.regs .rsp) a := by
  rcases ha with ha | ha
  · exact ha
  · rw [h] at ha ⊢
    unfold InRange at ha
    refine .inr ?_
    bv_omega

/-- It returns to where it was called from. -/
theorem demo_honest : demoGuest.Honest demoBlind sigBase .enter demo0.state := by
  refine ⟨DemoInv, ⟨cread_read (a := 0x7000) (l := demo0.log) (by decide), rfl, rfl⟩,
    fun _ _ _ _ _ _ _ _ hq h => demo_own hq h, fun tr b k s c k' _ hb hx => ?_⟩
  obtain ⟨i1, i2⟩ := hb
  cases k <;> simp only [demoGuest, Option.some.injEq, Prod.mk.injEq, reduceCtorEq] at hx
  case enter =>
    obtain ⟨rfl, rfl⟩ := hx
    obtain ⟨i2, rfl⟩ := i2
    refine ⟨.push demoPush 0 16 demoFree, _, rfl, ⟨demoPush_is, apart_at i2 (by decide) (by decide), ?_, ?_, ?_, ?_, ?_⟩,
      .push (by decide), i1, i2, by rw [retAddr_zero, i2, i1]⟩
    · intro a ha
      rw [Site.word, retAddr_zero, i2] at ha
      exact demo_visible i2 (by decide) (by decide) a ha
    · exact demo_covered i2 (by decide) (by decide) (by decide)
    · rintro r (h | h)
      · exact h
      · exact demoFree_none r h
    · rintro (h | h) <;> exact h
    · exact ⟨rfl, fun r h => by simp [demoBlind] at h⟩
  case leaf =>
    obtain ⟨rfl, rfl⟩ := hx
    obtain ⟨i2, i3, rfl⟩ := i2
    refine ⟨.save leafPush .rax 0, _, rfl, ⟨leafPush_is, ?_, ?_, ?_, ?_, ?_, ?_⟩, .save, i1, i2, i3,
      by rw [retAddr_zero, i2, i3]⟩
    · have := apart_at i2 (by decide) (by decide)
      exact ⟨this.ret, fun i j hi _ => absurd hi (Nat.not_lt_zero i), fun i j _ hj => absurd hj (Nat.not_lt_zero j)⟩
    · intro a ha
      rw [Site.word, retAddr_zero, i2] at ha
      exact demo_visible i2 (by decide) (by decide) a ha
    · exact demo_covered i2 (by decide) (by decide) (by decide)
    · rintro r (h | h) <;> exact h
    · rintro (h | h) <;> exact h
    · exact ⟨rfl, fun h => h, rfl⟩
  case out =>
    obtain ⟨rfl, rfl⟩ := hx
    obtain ⟨i2, i3, rfl⟩ := i2
    refine ⟨.compare leafPop .rax, ⟨[0x401000], none⟩, rfl, ⟨leafPop_is, ?_, ?_, ?_, ?_, ?_, ?_⟩, ?_, i1, i2, i3, rfl⟩
    · have := apart_at i2 (by decide) (by decide)
      rw [retAddr_zero] at this
      exact ⟨this.ret, fun i j hi _ => absurd hi (Nat.not_lt_zero i), fun i j _ hj => absurd hj (Nat.not_lt_zero j)⟩
    · intro a ha
      rw [Site.word, i2] at ha
      exact demo_visible i2 (by decide) (by decide) a ha
    · exact demo_covered i2 (by decide) (by decide) (by decide)
    · rintro r (h | h) <;> exact h
    · exact fun _ => trivial
    · exact ⟨rfl, rfl⟩
    · have : s.mem.read64 (s.regs .rsp) = 0x402000 := by rw [i2, i3]
      rw [← this]
      exact .compare
  case leave =>
    obtain ⟨rfl, rfl⟩ := hx
    obtain ⟨i2, rfl⟩ := i2
    refine ⟨.check demoCheck 0 16 demoFree, ⟨[], none⟩, rfl,
      ⟨demoCheck_is, apart_at i2 (by decide) (by decide), ?_, ?_, ?_, ?_, ?_⟩, ?_, i1, trivial⟩
    · intro a ha
      rw [Site.word, retAddr_zero, i2] at ha
      exact demo_visible i2 (by decide) (by decide) a ha
    · exact demo_covered i2 (by decide) (by decide) (by decide)
    · rintro r (h | h)
      · exact h
      · exact demoFree_none r h
    · exact fun _ => trivial
    · exact ⟨rfl, fun r h => by simp [demoBlind] at h⟩
    · refine .check ⟨[], ?_, by simp, by simp⟩
      rw [retAddr_zero, i2, i1]; rfl

/-- The hypotheses of C103 are met. -/
theorem C103_example : demoGuest.Refines demoBlind .enter demo0.state :=
  C103_same_behaviour demo_respects demo_honest demo0_recorded rfl

/-! ## Programs which the snippets disturb -/

/-- A push, an instruction, a check, and an instruction by which the outside world learns something. -/
def tinyGuest (act : State → State) (look : State → W) : Guest Nat W where
  step k s l k' s' := (k = 1 ∧ l = 0 ∧ k' = 2 ∧ s' = act s) ∨ (k = 3 ∧ l = look s ∧ k' = 4 ∧ s' = s)
  site k := if k = 0 then some (demoPush, 1) else
    if k = 2 then some (demoCheck, 3) else none

/-- What the original does. -/
theorem tiny_bare {act : State → State} {look : State → W} {s0 : State} {tr : List W} {k : Nat} {s : State}
    (h : BareRun (tinyGuest act look) 0 s0 tr k s) :
    (k = 0 ∧ s = s0 ∧ tr = []) ∨ (k = 1 ∧ s = s0 ∧ tr = []) ∨ (k = 2 ∧ s = act s0 ∧ tr = [0]) ∨
    (k = 3 ∧ s = act s0 ∧ tr = [0]) ∨ (k = 4 ∧ s = act s0 ∧ tr = [0, look (act s0)]) := by
  induction h with
  | start => exact .inl ⟨rfl, rfl, rfl⟩
  | step _ hs ih =>
    cases hs with
    | own hs =>
      rcases hs with ⟨rfl, rfl, rfl, rfl⟩ | ⟨rfl, rfl, rfl, rfl⟩ <;> simp at ih
      · obtain ⟨rfl, rfl⟩ := ih; simp
      · obtain ⟨rfl, rfl⟩ := ih; simp
    | pass hx =>
      simp only [tinyGuest] at hx
      split at hx
      · next e =>
        subst e
        simp only [Option.some.injEq, Prod.mk.injEq] at hx
        obtain ⟨_, rfl⟩ := hx
        simp at ih; obtain ⟨rfl, rfl⟩ := ih; simp
      · split at hx
        · next e =>
          subst e
          simp only [Option.some.injEq, Prod.mk.injEq] at hx
          obtain ⟨_, rfl⟩ := hx
          simp at ih; obtain ⟨rfl, rfl⟩ := ih; simp
        · cases hx

/-- The program is in order but for what its own instructions look at and do: the snippets are emitted
code, and the stack is outside the shadow region. -/
def Guest.Placed {κ L : Type} (P : Guest κ L) (g : W) (k0 : κ) (s0 : State) : Prop :=
  Recorded g [] s0 ∧ ∀ tr k s c k', BareRun P k0 s0 tr k s → P.site k = some (c, k') →
    ∃ x : Site, x.code = c ∧ x.Emitted ∧ Apart g (x.word s) x.below s

theorem tiny_placed {act : State → State} {look : State → W} {c : LogState}
    (h0 : Recorded sigBase [] c.state) (h1 : c.state.regs .rsp = 0x7000)
    (h2 : (act c.state).regs .rsp = 0x7000) : (tinyGuest act look).Placed sigBase 0 c.state := by
  refine ⟨h0, ?_⟩
  intro tr k s x k' hr hx
  have hb := tiny_bare hr
  simp only [tinyGuest] at hx
  split at hx
  · next e =>
    subst e
    simp only [Option.some.injEq, Prod.mk.injEq] at hx
    obtain ⟨rfl, _⟩ := hx
    simp at hb
    obtain ⟨rfl, _⟩ := hb
    exact ⟨.push demoPush 0 16 demoFree, rfl, demoPush_is, apart_at h1 (by decide) (by decide)⟩
  · split at hx
    · next e =>
      subst e
      simp only [Option.some.injEq, Prod.mk.injEq] at hx
      obtain ⟨rfl, _⟩ := hx
      simp at hb
      obtain ⟨rfl, _⟩ := hb
      exact ⟨.check demoCheck 0 16 demoFree, rfl, demoCheck_is, apart_at h2 (by decide) (by decide)⟩
    · cases hx

/-- At the entry of the function the carry flag is set. -/
def tiny0 : LogState := { p0 with flags := 1 }

theorem tiny0_recorded : Recorded sigBase [] tiny0.state where
  gs := rfl
  pointer := cread_read (a := 0x100000) (l := tiny0.log) (by decide)
  holds := ⟨fun i h => absurd h (Nat.not_lt_zero i), by decide +kernel⟩
  guard := cread_read (a := 0x100010) (l := tiny0.log) (by decide)
  room := by decide

/-- After the push. -/
def tiny1 : LogState := after demoPush 9 demoPush tiny0

/-- After the check. -/
def tiny2 : LogState := after demoCheck 11 demoCheck tiny1

/-- The function has changed its return address. -/
def tinyMoved : LogState := { tiny1 with log := (0x7000, 0x402000) :: tiny1.log }

theorem crun_exits {w : Code} {n : Nat} {c c' : LogState} (e : crun sigBase w n w c = some ([], c')) :
    Exits w c.state c'.state := by
  have : Interrupted (fun _ _ _ => False) (fun _ _ => True) w w c.state [] c'.state :=
    crun_interrupted (fun _ _ _ => trivial) .refl e
  have key : ∀ {k : Code} {t : State}, Interrupted (fun _ _ _ => False) (fun _ _ => True) w w
      c.state k t → ∀ o, Ends w k t o → Ends w w c.state o := by
    intro k t h
    induction h with
    | refl => exact fun _ h => h
    | instr _ _ hg ih => exact fun o h => ih o (hg.ends h)
    | signal _ h => exact h.elim
  exact key this (.exit c'.state) ⟨1, rfl⟩

set_option maxRecDepth 20000

/-- The instrumented program up to the last instruction. -/
theorem tiny_armed (look : State → W) :
    ArmedRun (tinyGuest id look) 0 tiny0.state [0, look tiny2.state] (.run 4 tiny2.state) := by
  have e1 := after_crun (w := demoPush) (k := demoPush) (k' := []) (n := 9) (c := tiny0) (by decide +kernel)
  have e2 := after_crun (w := demoCheck) (k := demoCheck) (k' := []) (n := 11) (c := tiny1) (by decide +kernel)
  have r1 : ArmedRun (tinyGuest id look) 0 tiny0.state [] (.run 1 tiny1.state) :=
    .step (ls := []) .start (.snip rfl (crun_exits e1))
  have r2 : ArmedRun (tinyGuest id look) 0 tiny0.state [0] (.run 2 tiny1.state) :=
    .step (ls := [0]) r1 (.own (.inl ⟨rfl, rfl, rfl, rfl⟩))
  have r3 : ArmedRun (tinyGuest id look) 0 tiny0.state [0] (.run 3 tiny2.state) :=
    .step (ls := []) r2 (.snip rfl (crun_exits e2))
  exact .step (ls := [_]) r3 (.own (.inr ⟨rfl, rfl, rfl, rfl⟩))

theorem tiny_differs {look : State → W} (h : look tiny2.state ≠ look tiny0.state) :
    ¬ ∃ k s, BareRun (tinyGuest id look) 0 tiny0.state [0, look tiny2.state] k s := by
  rintro ⟨k, s, hr⟩
  have := tiny_bare hr
  simp at this
  exact h this.2.2

/-- C103 does not hold of programs which look at the flags behind a check: the world sees something which
the original never shows. -/
theorem C103_refuted_flags : ∃ P : Guest Nat W, P.Placed sigBase 0 tiny0.state ∧
    ∃ tr k t, ArmedRun P 0 tiny0.state tr (.run k t) ∧ ¬ ∃ k s, BareRun P 0 tiny0.state tr k s :=
  ⟨tinyGuest id State.flags, tiny_placed tiny0_recorded rfl rfl, _, _, _, tiny_armed _,
    tiny_differs (by decide +kernel)⟩

/-- ... nor of programs which keep something below the stack pointer across a push. -/
theorem C103_refuted_red_zone : ∃ P : Guest Nat W, P.Placed sigBase 0 tiny0.state ∧
    ∃ tr k t, ArmedRun P 0 tiny0.state tr (.run k t) ∧ ¬ ∃ k s, BareRun P 0 tiny0.state tr k s := by
  refine ⟨tinyGuest id fun s => s.mem.read64 (s.regs .rsp - 8), tiny_placed tiny0_recorded rfl rfl,
    _, _, _, tiny_armed _, tiny_differs ?_⟩
  have sp : tiny2.state.regs .rsp = 0x7000 := by decide +kernel
  have h1 : tiny2.state.mem.read64 0x6ff8 = 7 := cread_read (l := tiny2.log) (by decide +kernel)
  have h0 : tiny0.state.mem.read64 0x6ff8 = 0 := cread_read (l := tiny0.log) (by decide +kernel)
  show tiny2.state.mem.read64 (tiny2.state.regs .rsp - 8) ≠ tiny0.state.mem.read64 (tiny0.state.regs .rsp - 8)
  rw [sp, show tiny0.state.regs .rsp = 0x7000 from rfl, show (0x7000 : W) - 8 = 0x6ff8 from rfl, h1, h0]
  decide

/-- ... nor of programs which change their return addresses on purpose: they are killed. -/
theorem C103_refuted_moved : ∃ P : Guest Nat W, P.Placed sigBase 0 tiny0.state ∧
    (∃ s, BareRun P 0 tiny0.state [0, 7] 4 s) ∧ ArmedRun P 0 tiny0.state [0] .killed := by
  have e1 := after_crun (w := demoPush) (k := demoPush) (k' := []) (n := 9) (c := tiny0) (by decide +kernel)
  have e2 := after_crun (w := demoCheck) (k := demoCheck) (k' := demoCheck.drop 13) (n := 19)
    (c := tinyMoved) (by decide +kernel)
  refine ⟨tinyGuest (fun s => { s with mem := s.mem.write64 0x7000 0x402000 }) fun _ => 7,
    tiny_placed tiny0_recorded rfl rfl,
    ⟨{ tiny0.state with mem := tiny0.state.mem.write64 0x7000 0x402000 }, ?_⟩, ?_⟩
  · have r1 := BareRun.step (P := tinyGuest (fun s => { s with mem := s.mem.write64 0x7000 0x402000 })
      fun _ => 7) (k0 := 0) (s0 := tiny0.state) .start (.pass rfl)
    have r2 := r1.step (.own (.inl ⟨rfl, rfl, rfl, rfl⟩))
    have r3 := r2.step (.pass rfl)
    exact r3.step (.own (.inr ⟨rfl, rfl, rfl, rfl⟩))
  · have r1 : ArmedRun (tinyGuest (fun s => { s with mem := s.mem.write64 0x7000 0x402000 })
        fun _ => 7) 0 tiny0.state [] (.run 1 tiny1.state) :=
      .step (ls := []) .start (.snip rfl (crun_exits e1))
    have r2 := r1.step (.own (.inl ⟨rfl, rfl, rfl, rfl⟩))
    exact r2.step (.trap rfl (crun_traps (c := tinyMoved) (k := demoCheck.drop 14) e2))

end Verif
