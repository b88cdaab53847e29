import Verif.Cost
import Verif.Props.RefineExamples

/-!
# What the snippets cost (C128)
-/

namespace Verif.Tick

theorem took_trans {w k k1 k2 : Code} {s s1 s2 : State} {m m' : Nat} (h : Took w m k s k1 s1)
    (h' : Took w m' k1 s1 k2 s2) : Took w (m + m') k s k2 s2 := by
  induction h with
  | refl => simpa using h'
  | step g _ ih => rw [Nat.add_assoc]; exact .step g (ih h')

theorem took_cast {w k k1 : Code} {s s1 : State} {m m' : Nat} (h : Took w m k s k1 s1) (e : m = m') :
    Took w m' k s k1 s1 := e ▸ h

theorem one {w k k1 k2 : Code} {i : Instr} {s s1 s2 : State} {m : Nat} (g : Go w (i :: k) s k1 s1)
    (h : Took w m k1 s1 k2 s2) (ht : ticks i = 1 := by rfl) : Took w (m + 1) (i :: k) s k2 s2 := by
  rw [Nat.add_comm, ← ht]; exact .step g h

theorem free {w k k1 k2 : Code} {i : Instr} {s s1 s2 : State} {m : Nat} (g : Go w (i :: k) s k1 s1)
    (h : Took w m k1 s1 k2 s2) (ht : ticks i = 0 := by rfl) : Took w m (i :: k) s k2 s2 := by
  have := Took.step g h
  rwa [ht, Nat.zero_add] at this

theorem took_ends {w k k1 : Code} {s s1 : State} {m : Nat} {o : Outcome}
    (h : Took w m k s k1 s1) (he : Ends w k1 s1 o) : Ends w k s o := by
  induction h with
  | refl => exact he
  | step hg _ ih => exact hg.ends (ih he)

/-- There is one way only. -/
theorem took_same {w k : Code} {s : State} {m m' : Nat} {k1 k2 : Code} {s1 s2 : State}
    (h : Took w m k s k1 s1) (h' : Took w m' k s k2 s2)
    (e1 : ∀ k' s', ¬ Go w k1 s1 k' s') (e2 : ∀ k' s', ¬ Go w k2 s2 k' s') :
    m = m' ∧ k1 = k2 ∧ s1 = s2 := by
  induction h generalizing m' with
  | refl =>
    cases h' with
    | refl => exact ⟨rfl, rfl, rfl⟩
    | step g _ => exact absurd g (e1 _ _)
  | step g _ ih =>
    cases h' with
    | refl => exact absurd g (e2 _ _)
    | step g' h' =>
      obtain ⟨rfl, rfl⟩ := g.det g'
      obtain ⟨rfl, a, b⟩ := ih h' e1
      exact ⟨rfl, a, b⟩

theorem halt_nil {w : Code} {s : State} : ∀ k' s', ¬ Go w [] s k' s' := fun _ _ h => by cases h

theorem exits_of {w : Code} {m : Nat} {s s' : State} (h : ExitsIn w m s s') : Exits w s s' := by
  rw [exits_iff]; exact took_ends h (ends_nil _ _)

theorem exitsIn_same {w : Code} {m m' : Nat} {s s1 s2 : State} (h : ExitsIn w m s s1)
    (h' : ExitsIn w m' s s2) : m = m' := (took_same h h' halt_nil halt_nil).1

/-! ## Straight-line code -/

inductive Line : Code → State → State → Prop
  | nil {s} : Line [] s s
  | cons {i k s s1 s2} : ticks i = 1 → exec i s = .next s1 → Line k s1 s2 → Line (i :: k) s s2

theorem Line.took {c : Code} {s s' : State} (h : Line c s s') (w k : Code) :
    Took w c.length (c ++ k) s k s' := by
  induction h with
  | nil => exact .refl
  | cons a b _ ih =>
    refine took_cast (.step (.next b) ih) ?_
    rw [a, List.length_cons, Nat.add_comm]

theorem line_save (t1 t2 : Reg) (b1 b2 : Bool) (s : State) (h2 : t2 ≠ .rsp) :
    ∃ s1, Line (saveCode t1 t2 b1 b2) s s1 ∧ AfterSave t1 t2 b1 b2 s s1 := by
  have key : ∃ s1, Line (saveCode t1 t2 b1 b2) s s1 := by
    cases b1 <;> cases b2
    · exact ⟨s, .nil⟩
    · exact ⟨_, .cons rfl rfl .nil⟩
    · exact ⟨_, .cons rfl rfl .nil⟩
    · exact ⟨_, .cons rfl rfl (.cons rfl rfl .nil)⟩
  obtain ⟨s1, h⟩ := key
  refine ⟨s1, h, ?_⟩
  obtain ⟨s1', ha, he⟩ := ends_save [] [] t1 t2 b1 b2 s h2
  obtain ⟨n, hn⟩ := he _ (ends_nil [] s1')
  obtain ⟨m, hm⟩ := took_ends (h.took [] []) (ends_nil _ _)
  have := run_det hn hm
  injection this with this
  subst this; exact ha

theorem line_restore (t1 t2 : Reg) (b1 b2 : Bool) (s : State) :
    ∃ s1, Line (restoreCode t1 t2 b1 b2) s s1 := by
  cases b1 <;> cases b2
  · exact ⟨s, .nil⟩
  · exact ⟨_, .cons rfl rfl .nil⟩
  · exact ⟨_, .cons rfl rfl .nil⟩
  · exact ⟨_, .cons rfl rfl (.cons rfl rfl .nil)⟩

theorem line_saveRa (sp ra : Reg) (t : Temps) (s : State) : ∃ s1, Line (saveRa sp ra t) s s1 :=
  ⟨_, .cons rfl rfl (.cons rfl rfl (.cons rfl rfl (.cons rfl rfl (.cons rfl rfl .nil))))⟩

theorem save_length (t1 t2 : Reg) (b1 b2 : Bool) : (saveCode t1 t2 b1 b2).length = nsave b1 b2 / 8 := by
  cases b1 <;> cases b2 <;> simp [saveCode, nsave]

theorem restore_length (t1 t2 : Reg) (b1 b2 : Bool) :
    (restoreCode t1 t2 b1 b2).length = nsave b1 b2 / 8 := by
  cases b1 <;> cases b2 <;> simp [restoreCode, nsave]

/-! ## The loop -/

theorem took_iter (w k' : Code) (sp ra : Reg) (off : Int) (s : State) (h12 : sp ≠ ra) :
    Took w 4 ([.lea sp sp (-8), .load ra sp 0, .storeGs 0 sp, .cmpMem ra .rsp off] ++ k') s
      k' (iter sp ra off s) := by
  refine one (m := 3) (.next (s' := s.set sp (s.regs sp - 8)) ?_) ?_
  · simp [exec, State.ea, sub_eq_add_neg8]
  refine one (m := 2)
    (.next (s' := (s.set sp (s.regs sp - 8)).set ra (s.mem.read64 (s.regs sp - 8))) ?_) ?_
  · simp [exec, State.ea, State.set]
  refine one (m := 1)
    (.next (s' := { (s.set sp (s.regs sp - 8)).set ra (s.mem.read64 (s.regs sp - 8)) with
      mem := s.mem.write64 s.gs (s.regs sp - 8) }) ?_) ?_
  · simp [exec, State.gsa, State.set, h12]
  refine one (m := 0) (.next (s' := iter sp ra off s) ?_) .refl
  · simp [exec, iter, State.set]

theorem took_mismatch {w : Code} {sp ra : Reg} {off : Int} {k : Code} {g R ret q : W}
    {e : Nat → W} {n : Nat} {s : State} (h12 : sp ≠ ra) (h1 : sp ≠ .rsp) (h2 : ra ≠ .rsp)
    (h : LoopHyp sp ra off g R ret q e n s) (hne : e 0 ≠ ret) :
    Took w 6 (loopCode sp ra off k) s
      (.je .error :: .jmp .loop :: .bind .error :: .illegal :: .bind .done :: k)
      { iter sp ra off s with flags := cmpFlags ((e 0).setWidth 32) (BitVec.ofInt 32 0) } := by
  refine took_trans (m := 4) (m' := 2) (took_iter w _ sp ra off s h12) ?_
  refine one (m := 1) (.next (s' := iter sp ra off s) ?_) ?_
  · simp [exec, iter_zf h1 h2 h, hne]
  refine one (m := 0) (.next ?_) .refl
  · simp only [exec, iter_read32 h12 h]

theorem took_loop {w : Code} {sp ra : Reg} {off : Int} {k : Code} {g R ret : W}
    (hw : HasLoop w sp ra off k) (h12 : sp ≠ ra) (h1 : sp ≠ .rsp) (h2 : ra ≠ .rsp) (n : Nat) :
    ∀ (q : W) (e : Nat → W) (s : State), LoopHyp sp ra off g R ret q e n s →
      (∀ i, i < n → e i ≠ ret ∧ (e i).setWidth 32 ≠ 0#32) →
      (e n = ret → ∃ s', Took w (8 * n + 5) (loopCode sp ra off k) s k s') ∧
      (e n ≠ ret → (e n).setWidth 32 = 0#32 →
        ∃ k' s', Took w (8 * n + 7) (loopCode sp ra off k) s (.illegal :: k') s') := by
  induction n with
  | zero =>
    intro q e s h _
    refine ⟨fun he => ⟨iter sp ra off s, ?_⟩, fun he hlow => ?_⟩
    · refine took_trans (m := 4) (m' := 1) (took_iter w _ sp ra off s h12) ?_
      refine one (m := 0) (.goto (l := .done) (s' := iter sp ra off s) ?_ hw.done) .refl
      simp [exec, iter_zf h1 h2 h, he]
    · refine ⟨_, { iter sp ra off s with
          flags := cmpFlags ((e 0).setWidth 32) (BitVec.ofInt 32 0) },
        took_trans (m := 6) (m' := 1) (took_mismatch h12 h1 h2 h he)
          (one (m := 0) (.goto (l := .error) ?_ hw.error) .refl)⟩
      simp only [exec, State.zf, cmpFlags_zf]
      rw [if_pos]
      simpa using hlow
  | succ n ih =>
    intro q e s h hlt
    have hc : Took w 8 (loopCode sp ra off k) s (loopCode sp ra off k)
        { iter sp ra off s with flags := cmpFlags ((e 0).setWidth 32) (BitVec.ofInt 32 0) } := by
      refine took_trans (m := 6) (m' := 2) (took_mismatch h12 h1 h2 h (hlt 0 (by omega)).1)
        (one (m := 1) (.next ?_) (one (m := 0) (.goto rfl hw.loop) .refl))
      simp only [exec, State.zf, cmpFlags_zf]
      rw [if_neg]
      simpa using (hlt 0 (by omega)).2
    obtain ⟨ha, hr⟩ := ih (q - 8) (fun i => e (i + 1)) _
      ((h.iter h12 h1 h2).setFlags _) (fun i hi => hlt (i + 1) (by omega))
    refine ⟨fun he => ?_, fun he hlow => ?_⟩
    · obtain ⟨s', hs⟩ := ha he
      exact ⟨s', took_cast (took_trans hc hs) (by omega)⟩
    · obtain ⟨k', s', hs⟩ := hr he hlow
      exact ⟨k', s', took_cast (took_trans hc hs) (by omega)⟩

/-! ## Whole snippets -/

theorem took_check {pre c1 post : Code} {t : Temps} {off0 : Int} {t1 t2 : Reg}
    {b1 b2 : Bool} (hpre : ∀ l i, i ∈ pre → i.binds l = false)
    (h : Shape c1 t off0 t1 t2 b1 b2) (s : State) (n : Nat)
    (hsep : CheckSep (s.regs .rsp + BitVec.ofInt 64 off0) (nsave b1 b2) (n + 1) s)
    (hlt : ∀ i, i < n → s.entry i ≠ s.mem.read64 (s.regs .rsp + BitVec.ofInt 64 off0) ∧
      ¬ GuardLike (s.entry i)) :
    let w := pre ++ c1 ++ validateRa t1 t2 t ++ restoreCode t1 t2 b1 b2 ++ post
    let k := c1 ++ validateRa t1 t2 t ++ restoreCode t1 t2 b1 b2 ++ post
    (s.entry n = s.mem.read64 (s.regs .rsp + BitVec.ofInt 64 off0) →
      ∃ s', Took w (6 + 8 * n + 2 * (nsave b1 b2 / 8)) k s post s') ∧
    (s.entry n ≠ s.mem.read64 (s.regs .rsp + BitVec.ofInt 64 off0) → GuardLike (s.entry n) →
      ∃ k' s', Took w (8 + 8 * n + nsave b1 b2 / 8) k s (.illegal :: k') s') := by
  intro w k
  have hloop : HasLoop w t1 t2 t.spOffset (restoreCode t1 t2 b1 b2 ++ post) := by
    have := hasLoop (pre := pre ++ c1) (post := restoreCode t1 t2 b1 b2 ++ post) (sp := t1)
      (ra := t2) (t := t) (by
        intro l i hi
        rcases List.mem_append.1 hi with hi | hi
        · exact hpre l i hi
        · rw [h.code] at hi; exact saveCode_binds _ _ _ _ l i hi)
    simpa [w, List.append_assoc] using this
  obtain ⟨s1, p1, a1⟩ := line_save t1 t2 b1 b2 s h.rsp2
  obtain ⟨v1, v2, v3⟩ := a1.view hsep
  have p1' := p1.took w (validateRa t1 t2 t ++ (restoreCode t1 t2 b1 b2 ++ post))
  have hR1 : s1.regs .rsp + BitVec.ofInt 64 t.spOffset = s.regs .rsp + BitVec.ofInt 64 off0 := by
    rw [a1.rsp, h.off, ret_addr]
  have hyp : LoopHyp t1 t2 t.spOffset s1.gs (s.regs .rsp + BitVec.ofInt 64 off0)
      (s1.mem.read64 (s.regs .rsp + BitVec.ofInt 64 off0)) s1.shadow s1.entry n
      (s1.set t1 s1.shadow) :=
    { gs := rfl
      sp := by simp [State.set]
      slot := by simpa [State.set, h.rsp1.symm] using hR1
      ret := rfl
      ent := fun _ _ => rfl
      sepR := by rw [a1.gs]; exact hsep.ret_gs
      sepE := by intro i hi; rw [v1, a1.gs]; exact hsep.ent_gs i (by omega) }
  obtain ⟨ha, hr⟩ := took_loop hloop h.ne h.rsp1 h.rsp2 n _ _ _ hyp (by
    intro i hi; rw [v2, v3 i (by omega)]; exact hlt i hi)
  have p2 : Took w 1 (validateRa t1 t2 t ++ (restoreCode t1 t2 b1 b2 ++ post)) s1
      (loopCode t1 t2 t.spOffset (restoreCode t1 t2 b1 b2 ++ post)) (s1.set t1 s1.shadow) := by
    refine one (m := 0) (.next (s' := s1.set t1 s1.shadow) ?_)
      (free (m := 0) (.next rfl) .refl)
    · simp [exec, State.gsa, State.shadow]
  have hk : k = saveCode t1 t2 b1 b2 ++ (validateRa t1 t2 t ++
      (restoreCode t1 t2 b1 b2 ++ post)) := by
    simp only [k, h.code, List.append_assoc]
  rw [hk]
  refine ⟨fun hcase => ?_, fun hcase hn => ?_⟩
  · obtain ⟨s2, p3⟩ := ha (by rw [v2, v3 n (by omega)]; exact hcase)
    obtain ⟨s3, p4⟩ := line_restore t1 t2 b1 b2 s2
    refine ⟨s3, took_cast (took_trans p1' (took_trans p2 (took_trans p3 (p4.took w post)))) ?_⟩
    rw [save_length, restore_length]; omega
  · obtain ⟨k', s', p3⟩ := hr (by rw [v2, v3 n (by omega)]; exact hcase)
      (by rw [v3 n (by omega)]; exact hn)
    refine ⟨k', s', took_cast (took_trans p1' (took_trans p2 p3)) ?_⟩
    rw [save_length]; omega

/-- **C128** (push).  Recording a return address takes 5 instructions and 2 for each register saved,
whatever is recorded already. -/
theorem _root_.Verif.C128_push {code : Code} {d : Int} {n : Nat} {free : Reg → Prop}
    (hc : IsPush code d n free) (s : State) : ∃ s', ExitsIn code (5 + 2 * (n / 8)) s s' := by
  obtain ⟨fl, sm, uo, ht, uf, bs, ts, mid, hf, hm, hok, hcode, rfl, rfl, rfl⟩ := hc
  obtain ⟨c1, t, t1, t2, b1, b2, he, hs, hn, _⟩ := (chosen_push hok ht).out
  have e : code = c1 ++ saveRa t1 t2 t ++ restoreCode t1 t2 b1 b2 := by
    simp [jitStackPush, hf.notEmpty, hm, stackPushWith, he, body, hs.tmp1, hs.tmp2, hf.notSave,
      hf.noFrame, hs.restore] at hcode
    rw [← hcode]; simp
  rw [← hn]
  obtain ⟨s1, p1, _⟩ := line_save t1 t2 b1 b2 s hs.rsp2
  obtain ⟨s2, p2⟩ := line_saveRa t1 t2 t s1
  obtain ⟨s3, p3⟩ := line_restore t1 t2 b1 b2 s2
  refine ⟨s3, ?_⟩
  unfold ExitsIn
  conv => arg 3; rw [e, hs.code, List.append_assoc]
  have p3' := p3.took code []
  rw [List.append_nil] at p3'
  refine took_cast (took_trans (p1.took code _) (took_trans (p2.took code _) p3')) ?_
  rw [save_length, restore_length]
  have : (saveRa t1 t2 t).length = 5 := rfl
  omega

theorem check_took {code : Code} {d : Int} {n : Nat} {free : Reg → Prop}
    (hc : IsCheck code d n free) {s : State} {j : Nat}
    (hsep : CheckSep (s.retAddr d) n (j + 1) s)
    (hlt : ∀ i, i < j → s.entry i ≠ s.mem.read64 (s.retAddr d) ∧ ¬ GuardLike (s.entry i)) :
    (s.entry j = s.mem.read64 (s.retAddr d) → ∃ s', ExitsIn code (6 + 8 * j + 2 * (n / 8)) s s') ∧
    (s.entry j ≠ s.mem.read64 (s.retAddr d) → GuardLike (s.entry j) →
      TrapsIn code (8 + 8 * j + n / 8) s) := by
  obtain ⟨fl, sm, uo, bs, addr, mid, hf, hm, hok, hcode, rfl, rfl, rfl⟩ := hc
  obtain ⟨c1, t, t1, t2, b1, b2, he, hs, hn, _⟩ := (chosen_pop hok).out
  have ecode : code = [] ++ c1 ++ validateRa t1 t2 t ++ restoreCode t1 t2 b1 b2 ++ [] := by
    simp [jitStackPop, hf.notEmpty, hm, stackPopWith, he, body, hs.tmp1, hs.tmp2, hf.notSave,
      hf.noFrame, hs.restore] at hcode
    rw [← hcode]; simp
  rw [← hn] at hsep ⊢
  have := took_check (pre := []) (post := []) (by simp) hs s j hsep hlt
  subst ecode
  refine ⟨fun h => ?_, fun h h' => ?_⟩
  · obtain ⟨s', hp⟩ := this.1 h
    exact ⟨s', by simpa [ExitsIn] using hp⟩
  · obtain ⟨k', s', hp⟩ := this.2 h h'
    exact ⟨k', s', by simpa using hp⟩

/-- The entries of a list which is split. -/
theorem entry_split {g : W} {pre post : List W} {v : W} {s : State}
    (h : Recorded g (pre ++ v :: post) s) :
    s.entry pre.length = v ∧ ∀ i, i < pre.length → s.entry i ∈ pre := by
  refine ⟨?_, fun i hi => ?_⟩
  · rw [h.holds.entry (by simp), dif_pos (by simp)]; simp
  · rw [h.holds.entry (by simp; omega), dif_pos (by simp; omega), List.getElem_append_left hi]
    exact List.getElem_mem hi

theorem entry_bottom {g : W} {l : List W} {s : State} (h : Recorded g l s) :
    s.entry l.length = 0 ∧ ∀ i, i < l.length → s.entry i ∈ l := by
  refine ⟨h.holds.guard, fun i hi => ?_⟩
  rw [h.holds.entry (by omega), dif_pos hi]
  exact List.getElem_mem hi

/-- **C128** (check).  A check takes 6 instructions, 2 for each register saved and 8 for each recorded
address which it throws away before it comes to the return address. -/
theorem _root_.Verif.C128_check {code : Code} {d : Int} {n : Nat} {free : Reg → Prop}
    (hc : IsCheck code d n free) {g : W} {pre post : List W} {s : State}
    (h : Recorded g (pre ++ s.mem.read64 (s.retAddr d) :: post) s) (ha : Apart g (s.retAddr d) n s)
    (hpre : s.mem.read64 (s.retAddr d) ∉ pre) (hg : ∀ x, x ∈ pre → ¬ GuardLike x) :
    ∃ s', ExitsIn code (6 + 8 * pre.length + 2 * (n / 8)) s s' := by
  obtain ⟨e1, e2⟩ := entry_split h
  refine (check_took hc ((h.checkSep ha).mono (by simp)) fun i hi => ?_).1 e1
  exact ⟨fun e => hpre (e ▸ e2 i hi), hg _ (e2 i hi)⟩

/-- **C128** (alarm).  When the return address was not recorded, the check gets to the illegal instruction
after 8 instructions, one for each register saved and 8 for each recorded address. -/
theorem _root_.Verif.C128_alarm {code : Code} {d : Int} {n : Nat} {free : Reg → Prop}
    (hc : IsCheck code d n free) {g : W} {l : List W} {s : State}
    (h : Recorded g l s) (ha : Apart g (s.retAddr d) n s) (h0 : s.mem.read64 (s.retAddr d) ≠ 0)
    (hl : s.mem.read64 (s.retAddr d) ∉ l) (hg : ∀ x, x ∈ l → ¬ GuardLike x) :
    TrapsIn code (8 + 8 * l.length + n / 8) s := by
  obtain ⟨e1, e2⟩ := entry_bottom h
  refine (check_took hc ((h.checkSep ha).mono (by omega)) fun i hi => ?_).2
    (by rw [e1]; exact h0.symm) (by rw [e1]; exact guardLike_zero)
  exact ⟨fun e => hl (e ▸ e2 i hi), hg _ (e2 i hi)⟩

/-! ## Register frames -/

theorem enter_took {code : Code} {reg : Reg} {d : Int} (hp : IsRegPush code reg d) (s : State) :
    ∃ s', ExitsIn code 2 s s' := by
  obtain ⟨fl, sm, hf, hr, hcode⟩ := hp
  have : code = [.storeGs 8 reg, .load reg .rsp d] := by
    simp [jitRegisterPush, hf.notEmpty, hf.notSave, hr.get] at hcode
    exact hcode.symm
  subst this
  exact ⟨_, one (m := 1) (.next rfl) (one (m := 0) (.next rfl) .refl)⟩

theorem leave_took {pop : Code} {reg : Reg} (hq : IsRegPop pop reg) (s : State)
    (heq : s.mem.read64 (s.regs .rsp) = s.regs reg) : ∃ s', ExitsIn pop 3 s s' := by
  obtain ⟨fl, sm, hf, hr, hcode⟩ := hq
  obtain ⟨t1, t2, t, c1, he, hs, _, _⟩ := regPop_emitted hf hr
  rw [he] at hcode
  obtain rfl := Option.some.inj hcode
  generalize hw : regPopCode reg t1 t2 t c1 = w
  have ek : w = .cmpMem reg .rsp 0 :: .je .success ::
      (c1 ++ validateRa t1 t2 t ++ restoreCode t1 t2 true true ++
        [.bind .success, .loadGs reg 8]) := by rw [← hw]; simp [regPopCode]
  have ht : target .success w = some [.loadGs reg 8] := by
    rw [← hw]; unfold regPopCode
    rw [target_append]
    · rfl
    · intro i hi
      simp only [List.mem_append] at hi
      rcases hi with ((hi | hi) | hi) | hi
      · simp at hi; rcases hi with rfl | rfl <;> rfl
      · rw [hs.code] at hi; exact saveCode_binds _ _ _ _ _ i hi
      · simp [validateRa] at hi
        rcases hi with rfl | rfl | rfl | rfl | rfl | rfl | rfl | rfl | rfl | rfl | rfl | rfl | rfl <;>
          rfl
      · simp [restoreCode] at hi; rcases hi with rfl | rfl <;> rfl
  refine ⟨(cmpState reg s).set reg (s.mem.read64 (s.gs + 8)), ?_⟩
  unfold ExitsIn
  conv => arg 3; rw [ek]
  refine one (m := 2) (.next (cmpState_exec reg s)) (one (m := 1)
    (.goto (l := .success) (s' := cmpState reg s) ?_ ht)
    (one (m := 0) (.next (loadGs_exec reg _)) .refl))
  simp [exec, cmpState_zf, heq]

/-- **C128** (register frames).  Keeping the return address in a register takes 2 instructions at the entry
and 3 at the exit. -/
theorem _root_.Verif.C128_register {push pop : Code} {reg : Reg} {d : Int} (hp : IsRegPush push reg d)
    (hq : IsRegPop pop reg) (s : State) : (∃ s', ExitsIn push 2 s s') ∧
      (s.mem.read64 (s.regs .rsp) = s.regs reg → ∃ s', ExitsIn pop 3 s s') :=
  ⟨enter_took hp s, leave_took hq s⟩

theorem fallback_took {code : Code} {reg : Reg} (hc : IsRegPop code reg) {g : W}
    {l : List W} {s : State} {j : Nat} (h : Recorded g l s) (hj : j ≤ l.length)
    (ha : Apart g (s.regs .rsp) 16 s) (hne : s.mem.read64 (s.regs .rsp) ≠ s.regs reg)
    (hlt : ∀ i, i < j → s.entry i ≠ s.mem.read64 (s.regs .rsp) ∧ ¬ GuardLike (s.entry i)) :
    (s.entry j = s.mem.read64 (s.regs .rsp) → ∃ s', ExitsIn code (13 + 8 * j) s s') ∧
    (s.entry j ≠ s.mem.read64 (s.regs .rsp) → GuardLike (s.entry j) →
      TrapsIn code (12 + 8 * j) s) := by
  obtain ⟨fl, sm, hf, hr, hcode⟩ := hc
  obtain ⟨t1, t2, t, c1, he, hs, _, _⟩ := regPop_emitted hf hr
  rw [he] at hcode
  obtain rfl := Option.some.inj hcode
  generalize hw : regPopCode reg t1 t2 t c1 = w
  have ek : w = .cmpMem reg .rsp 0 :: .je .success ::
      (c1 ++ validateRa t1 t2 t ++ restoreCode t1 t2 true true ++
        [.bind .success, .loadGs reg 8]) := by rw [← hw]; simp [regPopCode]
  have ew : w = [.cmpMem reg .rsp 0, .je .success] ++ c1 ++ validateRa t1 t2 t ++
      restoreCode t1 t2 true true ++ [.bind .success, .loadGs reg 8] := by
    rw [← hw]; simp [regPopCode]
  have hc : Recorded g l (cmpState reg s) := h.keep rfl fun _ _ => rfl
  have e1 : (cmpState reg s).regs .rsp + BitVec.ofInt 64 0 = s.regs .rsp := by simp [cmpState]
  have ha' : Apart g ((cmpState reg s).regs .rsp + BitVec.ofInt 64 0) (nsave true true)
      (cmpState reg s) := by rw [e1]; exact ⟨ha.ret, ha.save, ha.ret_save⟩
  have hret : (cmpState reg s).mem.read64 ((cmpState reg s).regs .rsp + BitVec.ofInt 64 0) =
      s.mem.read64 (s.regs .rsp) := by rw [e1]; rfl
  have := took_check (pre := [.cmpMem reg .rsp 0, .je .success])
    (post := [.bind .success, .loadGs reg 8]) (by
      intro l i hi
      simp at hi
      rcases hi with rfl | rfl <;> rfl) hs (cmpState reg s) j
    ((hc.checkSep ha').mono (by omega)) (fun i hi => by rw [hret]; exact hlt i hi)
  dsimp only at this
  rw [← ew, hret] at this
  have e2 : nsave true true / 8 = 2 := rfl
  have first : ∀ k2 s2 m, Took w m
      (c1 ++ validateRa t1 t2 t ++ restoreCode t1 t2 true true ++ [.bind .success, .loadGs reg 8])
      (cmpState reg s) k2 s2 → Took w (m + 1 + 1) w s k2 s2 := by
    intro k2 s2 m hp
    conv => arg 3; rw [ek]
    refine one (.next (cmpState_exec reg s)) (one (.next (s' := cmpState reg s) ?_) hp)
    simp [exec, cmpState_zf, Ne.symm hne]
  refine ⟨fun hh => ?_, fun hh hg => ?_⟩
  · obtain ⟨s', hp⟩ := this.1 hh
    have last : Took w 1 [.bind .success, .loadGs reg 8] s' [] (s'.set reg (s'.mem.read64 (s'.gs + 8))) :=
      free (m := 1) (.next rfl) (one (m := 0) (.next (loadGs_exec reg _)) .refl)
    exact ⟨_, took_cast (first _ _ _ (took_trans hp last)) (by omega)⟩
  · obtain ⟨k', s', hp⟩ := this.2 hh hg
    exact ⟨k', s', took_cast (first _ _ _ hp) (by omega)⟩

/-- **C128** (register frames, after a longjmp).  When the return address is not the one in the register,
the exit takes 13 instructions and 8 for each recorded address which is thrown away. -/
theorem _root_.Verif.C128_fallback {code : Code} {reg : Reg} (hc : IsRegPop code reg) {g : W}
    {pre post : List W} {s : State} (h : Recorded g (pre ++ s.mem.read64 (s.regs .rsp) :: post) s)
    (ha : Apart g (s.regs .rsp) 16 s) (hne : s.mem.read64 (s.regs .rsp) ≠ s.regs reg)
    (hpre : s.mem.read64 (s.regs .rsp) ∉ pre) (hg : ∀ x, x ∈ pre → ¬ GuardLike x) :
    ∃ s', ExitsIn code (13 + 8 * pre.length) s s' := by
  obtain ⟨e1, e2⟩ := entry_split h
  refine (fallback_took hc h (by simp) ha hne fun i hi => ?_).1 e1
  exact ⟨fun e => hpre (e ▸ e2 i hi), hg _ (e2 i hi)⟩

/-! ## Whole runs -/

theorem below_le {code : Code} {d : Int} {n : Nat} {free : Reg → Prop} (hc : IsCheck code d n free) :
    n ≤ 16 := by
  obtain ⟨fl, sm, uo, bs, addr, mid, hf, hm, hok, hcode, rfl, rfl, rfl⟩ := hc
  obtain ⟨c1, t, t1, t2, b1, b2, he, hs, hn, _⟩ := (chosen_pop hok).out
  rw [← hn]; exact nsave_le _ _

theorem below_le' {code : Code} {d : Int} {n : Nat} {free : Reg → Prop} (hc : IsPush code d n free) :
    n ≤ 16 := by
  obtain ⟨fl, sm, uo, ht, uf, bs, ts, mid, hf, hm, hok, hcode, rfl, rfl, rfl⟩ := hc
  obtain ⟨c1, t, t1, t2, b1, b2, he, hs, hn, _⟩ := (chosen_push hok ht).out
  rw [← hn]; exact nsave_le _ _

/-- What one snippet pays, and what it leaves for later. -/
theorem snip_pays {g : W} {s s' : State} {w : Code} {ev : ShEv} {R : W} {n t : Nat} {l : List W}
    (h : Starts g s w ev R n) (hr : Recorded g l s) (hx : ExitsIn w t s s') :
    ∃ l', Recorded g l' s' ∧ t + 8 * l'.length ≤ 8 * l.length + price ev := by
  obtain ⟨l', hst, hr'⟩ := h.exits hr (exits_of hx)
  refine ⟨l', hr', ?_⟩
  cases h with
  | push hc ha hroom =>
    obtain ⟨s2, h2⟩ := C128_push hc s
    obtain rfl := exitsIn_same hx h2
    have := below_le' hc
    cases hst
    simp only [price, List.length_cons]; omega
  | check hc ha h0 =>
    cases hst with
    | check hf =>
      obtain ⟨pre, rfl, h1, h2⟩ := hf.split
      obtain ⟨s2, h2⟩ := C128_check hc hr ha h1 h2
      obtain rfl := exitsIn_same hx h2
      have := below_le hc
      simp only [price, List.length_append, List.length_cons]; omega
  | enter hc ha =>
    cases hst
    obtain ⟨s2, h2⟩ := enter_took hc s
    obtain rfl := exitsIn_same hx h2
    simp only [price]; omega
  | @leave reg hc ha h0 =>
    by_cases e : s.mem.read64 (s.regs .rsp) = s.regs reg
    · obtain ⟨s2, h2⟩ := leave_took hc s e
      obtain rfl := exitsIn_same hx h2
      have : l' = l := by
        generalize e' : ShEv.leave _ _ = ev at hst
        cases hst with
        | same => rfl
        | differ hne _ =>
          injection e' with e1 e2
          exact absurd (e1.symm.trans (e.trans e2)) hne
        | _ => cases e'
      subst this
      simp only [price]; omega
    · generalize e' : ShEv.leave _ _ = ev at hst
      cases hst with
      | same =>
        injection e' with e1 e2
        exact absurd (e1.trans e2.symm) e
      | differ hne hf =>
        injection e' with e1 e2
        subst e1
        obtain ⟨pre, rfl, h1, h2⟩ := hf.split
        obtain ⟨s2, h2⟩ := C128_fallback hc hr ha e h1 h2
        obtain rfl := exitsIn_same hx h2
        simp only [price, List.length_append, List.length_cons]; omega
      | _ => cases e'

/-- **C128** (at most).  Whatever the memory holds, a snippet is at its end, or at the illegal instruction,
after at most 13 instructions and 8 for each recorded address. -/
theorem _root_.Verif.C128_most {g : W} {s : State} {w : Code} {ev : ShEv} {R : W} {n : Nat} {l : List W}
    (h : Starts g s w ev R n) (hr : Recorded g l s) :
    ∃ m, m ≤ 13 + 8 * l.length ∧ ((∃ s', ExitsIn w m s s') ∨ TrapsIn w m s) := by
  cases h with
  | push hc ha hroom =>
    have := below_le' hc
    exact ⟨_, by omega, .inl (C128_push hc s)⟩
  | @check d n free hc ha h0 =>
    have := below_le hc
    obtain ⟨k, hk, hlt, hend⟩ := first_hit hr.holds (s.retAddr d)
    obtain ⟨p, q⟩ := check_took hc ((hr.checkSep ha).mono (by omega)) hlt
    by_cases e : s.entry k = s.mem.read64 (s.retAddr d)
    · exact ⟨_, by omega, .inl (p e)⟩
    · exact ⟨_, by omega, .inr (q e (hend.resolve_left e))⟩
  | enter hc ha => exact ⟨2, by omega, .inl (enter_took hc s)⟩
  | @leave reg hc ha h0 =>
    by_cases e : s.mem.read64 (s.regs .rsp) = s.regs reg
    · exact ⟨3, by omega, .inl (leave_took hc s e)⟩
    · obtain ⟨k, hk, hlt, hend⟩ := first_hit hr.holds (s.regs .rsp)
      obtain ⟨p, q⟩ := fallback_took hc hr hk ha e hlt
      by_cases e' : s.entry k = s.mem.read64 (s.regs .rsp)
      · exact ⟨_, by omega, .inl (p e')⟩
      · exact ⟨_, by omega, .inr (q e' (hend.resolve_left e'))⟩

/-- **C128** (whole runs).  All snippets which a thread runs take, together, at most 17 instructions for each
push, 2 for each check or entry of a register frame, 5 for each exit of one, and 8 for each address recorded
at the beginning: what a check spends on throwing addresses away, their pushes have paid for. -/
theorem _root_.Verif.C128_total {g : W} {s s' : State} {l : List W} {h : List ShEv} {m : Nat}
    (hr : Recorded g l s) (hs : Spent g s h m s') :
    ∃ l', Recorded g l' s' ∧ m + 8 * l'.length ≤ 8 * l.length + bill h := by
  induction hs with
  | refl => exact ⟨l, hr, by simp [bill]⟩
  | prog _ hg hm ih =>
    obtain ⟨l', h1, h2⟩ := ih
    exact ⟨l', recorded_region h1 hg hm, h2⟩
  | snip _ hst hx ih =>
    obtain ⟨l1, h1, h2⟩ := ih
    obtain ⟨l2, h3, h4⟩ := snip_pays hst h1 hx
    refine ⟨l2, h3, ?_⟩
    simp only [bill, List.map_cons, List.sum_cons] at h2 ⊢
    omega

/-! ## An example -/

/-- The program goes to the place where the return address `v` is at `a`. -/
def at_ (a v : W) (s : State) : State :=
  { s with regs := fun r => if r = .rsp then a else s.regs r, mem := s.mem.write64 a v }

theorem at_read (a v : W) (s : State) :
    (at_ a v s).mem.read64 ((at_ a v s).retAddr 0) = v := by
  have : (at_ a v s).retAddr 0 = a := by simp [State.retAddr, at_]
  rw [this]; exact read64_write64 ..

theorem at_spent {a v : W} {s0 s : State} {h : List ShEv} {m : Nat} (hs : Spent sigBase s0 h m s)
    (ha : Sep a 8 sigBase regionSize) : Spent sigBase s0 h m (at_ a v s) :=
  hs.prog rfl fun _ hx => write64_outRange _ _ _ _ fun hy => sep_not_inRange ha hy hx

theorem at_apart {a v : W} {s : State} (h1 : Sep a 8 sigBase regionSize)
    (h2 : Sep (a - 16) 16 sigBase regionSize) (h3 : Sep a 8 (a - 16) 16) :
    Apart sigBase ((at_ a v s).retAddr 0) 16 (at_ a v s) := by
  have e : (at_ a v s).retAddr 0 = a := by simp [State.retAddr, at_]
  rw [e]
  exact ⟨h1, by simpa [at_] using h2, by simpa [at_] using h3⟩

/-- A function calls another, which leaves by `longjmp`; the first returns.  The check takes 18 instructions,
and all three snippets together take exactly what `C128_total` allows. -/
theorem _root_.Verif.C128_example : ∃ s', Recorded sigBase [] demo0.state ∧
    Spent sigBase demo0.state [.check 0x401000, .push 0x402000, .push 0x401000] 36 s' ∧
    bill [.check 0x401000, .push 0x402000, .push 0x401000] = 36 := by
  have k1 : Sep (0x7000 : W) 8 sigBase regionSize := sep_of_le (by decide) (by decide) (by decide)
  have k2 : Sep (0x7000 - 16 : W) 16 sigBase regionSize := sep_of_le (by decide) (by decide) (by decide)
  have k3 : Sep (0x7000 : W) 8 (0x7000 - 16) 16 := sep_of_le (by decide) (by decide) (by decide)
  have j1 : Sep (0x6f00 : W) 8 sigBase regionSize := sep_of_le (by decide) (by decide) (by decide)
  have j2 : Sep (0x6f00 - 16 : W) 16 sigBase regionSize := sep_of_le (by decide) (by decide) (by decide)
  have j3 : Sep (0x6f00 : W) 8 (0x6f00 - 16) 16 := sep_of_le (by decide) (by decide) (by decide)
  have move : ∀ {l : List W} {a v : W} {s : State}, Recorded sigBase l s → Sep a 8 sigBase regionSize →
      Recorded sigBase l (at_ a v s) := fun h hs => recorded_region h rfl
    fun _ hx => write64_outRange _ _ _ _ fun hy => sep_not_inRange hs hy hx
  have r0 := move (a := 0x7000) (v := 0x401000) demo0_recorded k1
  have p0 := at_spent (a := 0x7000) (v := 0x401000) (.refl (g := sigBase) (s := demo0.state)) k1
  have c0 := Starts.push demoPush_is (at_apart (v := 0x401000) (s := demo0.state) k1 k2 k3)
    (r0.hasRoom.2 (by decide))
  rw [at_read] at c0
  obtain ⟨s1, x1⟩ := C128_push demoPush_is (at_ 0x7000 0x401000 demo0.state)
  have p1 := p0.snip c0 x1
  obtain ⟨l1, st1, r1⟩ := c0.exits r0 (exits_of x1)
  cases st1
  have r1' := move (a := 0x6f00) (v := 0x402000) r1 j1
  have c1 := Starts.push demoPush_is (at_apart (v := 0x402000) (s := s1) j1 j2 j3)
    (r1'.hasRoom.2 (by decide))
  rw [at_read] at c1
  obtain ⟨s2, x2⟩ := C128_push demoPush_is (at_ 0x6f00 0x402000 s1)
  have p2 := (at_spent (v := 0x402000) p1 j1).snip c1 x2
  obtain ⟨l2, st2, r2⟩ := c1.exits r1' (exits_of x2)
  cases st2
  have r2' := move (a := 0x7000) (v := 0x401000) r2 k1
  have c2 := Starts.check demoCheck_is (at_apart (v := 0x401000) (s := s2) k1 k2 k3)
    (by rw [at_read]; decide)
  rw [at_read] at c2
  obtain ⟨s3, x3⟩ := C128_check (pre := [0x402000]) (post := []) demoCheck_is
    (s := at_ 0x7000 0x401000 s2) (by rw [at_read]; exact r2') (at_apart k1 k2 k3)
    (by rw [at_read]; decide) (by intro x hx; rw [List.mem_singleton] at hx; subst hx; decide)
  have p3 := (at_spent (a := 0x7000) (v := 0x401000) p2 k1).snip c2 x3
  have e : 0 + (5 + 2 * (16 / 8)) + (5 + 2 * (16 / 8)) +
      (6 + 8 * ([0x402000] : List W).length + 2 * (16 / 8)) = 36 := by simp
  rw [e] at p3
  exact ⟨s3, demo0_recorded, p3, by simp [bill, price]⟩

theorem at_recorded {l : List W} {a v : W} {s : State} (h : Recorded sigBase l s)
    (hs : Sep a 8 sigBase regionSize) : Recorded sigBase l (at_ a v s) :=
  recorded_region h rfl fun _ hx => write64_outRange _ _ _ _ fun hy => sep_not_inRange hs hy hx

/-- A function calls another, which leaves by `longjmp`, and does so again and again. -/
theorem many (n : Nat) (hn : 32 + 8 * (n + 1) ≤ regionSize) : ∃ s,
    Recorded sigBase (List.replicate n 0x402000 ++ [0x401000]) s ∧
    Spent sigBase demo0.state (List.replicate n (.push 0x402000) ++ [.push 0x401000]) (9 * (n + 1)) s := by
  induction n with
  | zero =>
    have k1 : Sep (0x7000 : W) 8 sigBase regionSize := sep_of_le (by decide) (by decide) (by decide)
    have r0 := at_recorded (a := 0x7000) (v := 0x401000) demo0_recorded k1
    have c0 := Starts.push demoPush_is (at_apart (v := 0x401000) (s := demo0.state) k1
      (sep_of_le (by decide) (by decide) (by decide)) (sep_of_le (by decide) (by decide) (by decide)))
      (r0.hasRoom.2 (by decide))
    rw [at_read] at c0
    obtain ⟨s1, x1⟩ := C128_push demoPush_is (at_ 0x7000 0x401000 demo0.state)
    obtain ⟨l1, st1, r1⟩ := c0.exits r0 (exits_of x1)
    cases st1
    exact ⟨s1, r1, (at_spent (v := 0x401000) .refl k1).snip c0 x1⟩
  | succ n ih =>
    obtain ⟨s, r, p⟩ := ih (by omega)
    have j1 : Sep (0x6f00 : W) 8 sigBase regionSize := sep_of_le (by decide) (by decide) (by decide)
    have r0 := at_recorded (a := 0x6f00) (v := 0x402000) r j1
    have c0 := Starts.push demoPush_is (at_apart (v := 0x402000) (s := s) j1
      (sep_of_le (by decide) (by decide) (by decide)) (sep_of_le (by decide) (by decide) (by decide)))
      (r0.hasRoom.2 (by simp; omega))
    rw [at_read] at c0
    obtain ⟨s1, x1⟩ := C128_push demoPush_is (at_ 0x6f00 0x402000 s)
    obtain ⟨l1, st1, r1⟩ := c0.exits r0 (exits_of x1)
    cases st1
    have := (at_spent (v := 0x402000) p j1).snip c0 x1
    have e : 9 * (n + 1) + (5 + 2 * (16 / 8)) = 9 * (n + 1 + 1) := by omega
    rw [e] at this
    exact ⟨s1, by rw [List.replicate_succ]; exact r1, by rw [List.replicate_succ]; exact this⟩

/-- **C128** (as long as that).  As many addresses as there is room for can be thrown away by one check, so no single check
is bounded by a constant; and `C128_total` cannot be improved: it is what such a run takes, exactly. -/
theorem _root_.Verif.C128_tight (n : Nat) (hn : 32 + 8 * (n + 1) ≤ regionSize) : ∃ s s' h,
    ExitsIn demoCheck (10 + 8 * n) s s' ∧ Recorded sigBase [] demo0.state ∧
    Spent sigBase demo0.state h (bill h) s' ∧ Recorded sigBase [] s' := by
  obtain ⟨s, r, p⟩ := many n hn
  have k1 : Sep (0x7000 : W) 8 sigBase regionSize := sep_of_le (by decide) (by decide) (by decide)
  have k2 : Sep (0x7000 - 16 : W) 16 sigBase regionSize := sep_of_le (by decide) (by decide) (by decide)
  have k3 : Sep (0x7000 : W) 8 (0x7000 - 16) 16 := sep_of_le (by decide) (by decide) (by decide)
  have r0 := at_recorded (a := 0x7000) (v := 0x401000) r k1
  have c0 := Starts.check demoCheck_is (at_apart (v := 0x401000) (s := s) k1 k2 k3) (by rw [at_read]; decide)
  rw [at_read] at c0
  have hne : (0x401000 : W) ∉ List.replicate n 0x402000 := by
    intro h; exact absurd (List.eq_of_mem_replicate h) (by decide)
  have hgl : ∀ x ∈ List.replicate n (0x402000 : W), ¬ GuardLike x := by
    intro x hx; rw [List.eq_of_mem_replicate hx]; decide
  obtain ⟨s', x⟩ := C128_check (pre := List.replicate n 0x402000) (post := []) demoCheck_is
    (s := at_ 0x7000 0x401000 s) (by rw [at_read]; exact r0) (at_apart k1 k2 k3)
    (by rw [at_read]; exact hne) hgl
  rw [List.length_replicate] at x
  have e : 6 + 8 * n + 2 * (16 / 8) = 10 + 8 * n := by omega
  rw [e] at x
  obtain ⟨l', st, r'⟩ := c0.exits r0 (exits_of x)
  have hl : l' = [] := by
    cases st with
    | check hf => exact finds_unique hf ⟨_, rfl, hne, hgl⟩
  have p' := (at_spent (v := 0x401000) p k1).snip c0 x
  refine ⟨_, s', .check 0x401000 :: (List.replicate n (.push 0x402000) ++ [.push 0x401000]), x,
    demo0_recorded, ?_, hl ▸ r'⟩
  have eb : 9 * (n + 1) + (10 + 8 * n) =
      bill (.check 0x401000 :: (List.replicate n (.push 0x402000) ++ [.push 0x401000])) := by
    simp only [bill, List.map_cons, List.map_append, List.map_replicate, List.sum_cons, List.sum_append,
      List.sum_replicate_nat, price, List.map_nil, List.sum_nil]
    omega
  rw [← eb]; exact p'

end Verif.Tick
