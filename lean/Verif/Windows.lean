import Verif.Footprint

/-!
# Snippets which run while other threads write to memory

The snippets of `/repo/src/jit.cc:142-166` and `233-278` are sequences of instructions, and
other threads run between any two of them. `Raced M w t k s t' k' s'`: the snippet `w`, at
time `t` being about to execute the suffix `k` in state `s`, gets to the suffix `k'` in state
`s'` at time `t'`. A unit of time is an instruction of the snippet, or a change of the memory
by others; the latter may change at time `t` the bytes in `M t`.

The lemmas follow such an execution from the comparison which lets a check go through to its
end, and from the start of a push to the instruction which loads the return address.
-/

namespace Verif

/-- An execution of a snippet while others write to memory. -/
inductive Raced (M : Nat → W → Prop) (w : Code) :
    Nat → Code → State → Nat → Code → State → Prop
  | refl {t k s} : Raced M w t k s t k s
  /-- others change some bytes -/
  | other {t k s m t' k' s'} : (∀ x, ¬ M t x → m x = s.mem x) →
      Raced M w (t + 1) k { s with mem := m } t' k' s' → Raced M w t k s t' k' s'
  /-- an instruction of the snippet -/
  | instr {t k s k1 s1 t' k' s'} : Go w k s k1 s1 →
      Raced M w (t + 1) k1 s1 t' k' s' → Raced M w t k s t' k' s'

theorem Raced.trans {M : Nat → W → Prop} {w k k1 k2 : Code} {t t1 t2 : Nat} {s s1 s2 : State}
    (h : Raced M w t k s t1 k1 s1) (h' : Raced M w t1 k1 s1 t2 k2 s2) :
    Raced M w t k s t2 k2 s2 := by
  induction h with
  | refl => exact h'
  | other hm _ ih => exact .other hm (ih h')
  | instr hg _ ih => exact .instr hg (ih h')

/-- A part of an execution in which the snippet itself changes nothing outside `F`. -/
structure Seg (F : W → Prop) (M : Nat → W → Prop) (w : Code) (t : Nat) (k : Code) (s : State)
    (t1 : Nat) (k1 : Code) (s1 : State) : Prop where
  run : Raced M w t k s t1 k1 s1
  le : t ≤ t1
  keeps : ∀ x, ¬ F x → (∀ j, t ≤ j → j < t1 → ¬ M j x) → s1.mem x = s.mem x

theorem Seg.refl {F : W → Prop} {M : Nat → W → Prop} {w k : Code} {t : Nat} {s : State} :
    Seg F M w t k s t k s := ⟨.refl, Nat.le_refl _, fun _ _ _ => rfl⟩

theorem Seg.trans {F : W → Prop} {M : Nat → W → Prop} {w k k1 k2 : Code} {t t1 t2 : Nat}
    {s s1 s2 : State} (h : Seg F M w t k s t1 k1 s1) (h' : Seg F M w t1 k1 s1 t2 k2 s2) :
    Seg F M w t k s t2 k2 s2 where
  run := h.run.trans h'.run
  le := Nat.le_trans h.le h'.le
  keeps := fun x hx hm => by
    have a := h.le
    have b := h'.le
    rw [h'.keeps x hx fun j h1 h2 => hm j (by omega) h2,
      h.keeps x hx fun j h1 h2 => hm j h1 (by omega)]

theorem AgreeOn.trans {F : W → Prop} {s s1 s2 : State} (h : AgreeOn F s s1)
    (h' : AgreeOn F s1 s2) : AgreeOn F s s2 where
  regs := h'.regs.trans h.regs
  flags := h'.flags.trans h.flags
  gs := h'.gs.trans h.gs
  mem := fun x hx => (h'.mem x hx).trans (h.mem x hx)

/-- An execution which ends gets to its first instruction: until then only others do
something. -/
theorem raced_first {F : W → Prop} {M : Nat → W → Prop} (hM : ∀ t x, M t x → ¬ F x) {w kk ke : Code}
    {t te : Nat} {s se : State} (h : Raced M w t kk s te ke se) :
    ∀ {i k}, kk = i :: k → ke = [] → ∃ t1 s1 k2 s2, Seg F M w t kk s t1 kk s1 ∧ AgreeOn F s s1 ∧
      Go w kk s1 k2 s2 ∧ Raced M w (t1 + 1) k2 s2 te ke se := by
  induction h with
  | refl => intro i k h1 h2; rw [h1] at h2; simp at h2
  | @other t k s m t' k' s' hm h ih =>
    intro i k0 h1 h2
    obtain ⟨t1, s1, k2, s2, a, b, c, d⟩ := ih h1 h2
    refine ⟨t1, s1, k2, s2, ⟨.other hm a.run, Nat.le_of_succ_le a.le, fun x hx hj => ?_⟩,
      AgreeOn.trans (s1 := { s with mem := m }) ⟨rfl, rfl, rfl, fun x hx => hm x fun hmx => hM _ _ hmx hx⟩ b,
      c, d⟩
    have := a.le
    rw [a.keeps x hx fun j h1 h2 => hj j (by omega) h2]
    exact hm x (hj t (Nat.le_refl _) (by omega))
  | instr hg h ih =>
    intro i k0 h1 h2
    exact ⟨_, _, _, _, .refl, ⟨rfl, rfl, rfl, fun _ _ => rfl⟩, hg, h⟩

/-- A step which leaves memory outside `F` alone, as a part. -/
theorem seg_go {F : W → Prop} {M : Nat → W → Prop} {w k k1 : Code} {t : Nat} {s s1 : State}
    (hg : Go w k s k1 s1) (hk : ∀ x, ¬ F x → s1.mem x = s.mem x) : Seg F M w t k s (t + 1) k1 s1 :=
  ⟨.instr hg .refl, Nat.le_succ _, fun x hx _ => hk x hx⟩

/-- An instruction which touches only `F` does what it does alone. -/
theorem raced_next {F : W → Prop} {M : Nat → W → Prop} (hM : ∀ t x, M t x → ¬ F x) {w k : Code}
    {i : Instr} {t te : Nat} {u u1 s se : State} (ha : AgreeOn F u s) (ht : Touches F i u)
    (he : exec i u = .next u1) (h : Raced M w t (i :: k) s te [] se) :
    ∃ t1 s1, Seg F M w t (i :: k) s t1 k s1 ∧ AgreeOn F u1 s1 ∧ Raced M w t1 k s1 te [] se := by
  obtain ⟨t1, s1, k2, s2, a, b, c, d⟩ := raced_first hM h rfl rfl
  obtain ⟨u2, hg, h1, h2⟩ := Go.agree (ha.trans b) ht c
  obtain ⟨rfl, rfl⟩ := hg.det (.next he)
  exact ⟨_, _, a.trans (seg_go c h2), h1, d⟩

theorem raced_goto {F : W → Prop} {M : Nat → W → Prop} (hM : ∀ t x, M t x → ¬ F x) {w k k1 : Code}
    {i : Instr} {l : Label} {t te : Nat} {u u1 s se : State} (ha : AgreeOn F u s)
    (ht : Touches F i u) (he : exec i u = .goto l u1) (hl : target l w = some k1)
    (h : Raced M w t (i :: k) s te [] se) :
    ∃ t1 s1, Seg F M w t (i :: k) s t1 k1 s1 ∧ AgreeOn F u1 s1 ∧ Raced M w t1 k1 s1 te [] se := by
  obtain ⟨t1, s1, k2, s2, a, b, c, d⟩ := raced_first hM h rfl rfl
  obtain ⟨u2, hg, h1, h2⟩ := Go.agree (ha.trans b) ht c
  obtain ⟨rfl, rfl⟩ := hg.det (.goto he hl)
  exact ⟨_, _, a.trans (seg_go c h2), h1, d⟩

/-- Nothing gets past an illegal instruction. -/
theorem raced_illegal {M : Nat → W → Prop} {w k : Code} {t te : Nat} {s se : State}
    (h : Raced M w t (.illegal :: k) s te [] se) : False := by
  obtain ⟨t1, s1, k2, s2, _, _, c, _⟩ := raced_first (F := fun _ => False) (fun _ _ _ h => h) h rfl rfl
  exact go_illegal _ _ c

/-- After the end only others do something. -/
theorem raced_nil {F : W → Prop} {M : Nat → W → Prop} (hM : ∀ t x, M t x → ¬ F x) {w kk ke : Code}
    {t te : Nat} {s se : State} (h : Raced M w t kk s te ke se) :
    kk = [] → Seg F M w t kk s te ke se ∧ AgreeOn F s se := by
  induction h with
  | refl => intro _; exact ⟨.refl, rfl, rfl, rfl, fun _ _ => rfl⟩
  | @other t k s m t' k' s' hm h ih =>
    intro h1
    obtain ⟨a, b⟩ := ih h1
    refine ⟨⟨.other hm a.run, Nat.le_of_succ_le a.le, fun x hx hj => ?_⟩,
      AgreeOn.trans (s1 := { s with mem := m })
        ⟨rfl, rfl, rfl, fun x hx => hm x fun hmx => hM _ _ hmx hx⟩ b⟩
    have := a.le
    rw [a.keeps x hx fun j h1 h2 => hj j (by omega) h2]
    exact hm x (hj t (Nat.le_refl _) (by omega))
  | instr hg h ih =>
    intro h1
    subst h1
    exact absurd hg (go_nil _ _)

/-- Straight-line code which touches only `F`. -/
theorem raced_str {F : W → Prop} {M : Nat → W → Prop} (hM : ∀ t x, M t x → ¬ F x) {c : Code}
    {u u1 : State} (hs : Str F c u u1) : ∀ {w k : Code} {t te : Nat} {s se : State},
    AgreeOn F u s → Raced M w t (c ++ k) s te [] se →
    ∃ t1 s1, Seg F M w t (c ++ k) s t1 k s1 ∧ AgreeOn F u1 s1 ∧ Raced M w t1 k s1 te [] se := by
  induction hs with
  | nil => intro w k t te s se ha h; exact ⟨t, s, .refl, ha, h⟩
  | cons ht he _ ih =>
    intro w k t te s se ha h
    obtain ⟨t1, s1, a, b, c⟩ := raced_next hM ha ht he h
    obtain ⟨t2, s2, a', b', c'⟩ := ih b c
    exact ⟨t2, s2, a.trans a', b', c'⟩

/-! ## The loop of a check -/

/-- What the loop touches besides the return address. -/
structure LoopFoot (F : W → Prop) (g q : W) (n : Nat) : Prop where
  gs : Covers F g 8
  ent : ∀ i, i ≤ n → Covers F (entAddr q i) 8

theorem LoopFoot.down {F : W → Prop} {g q : W} {n : Nat} (h : LoopFoot F g q (n + 1)) :
    LoopFoot F g (q - 8) n :=
  ⟨h.gs, fun i hi => by rw [entAddr_succ]; exact h.ent _ (by omega)⟩

/-- The first three instructions of the loop. -/
theorem str_iter {F : W → Prop} {sp ra : Reg} {off : Int} {g R ret q : W} {e : Nat → W} {n : Nat}
    {u : State} (h12 : sp ≠ ra) (h : LoopHyp sp ra off g R ret q e n u) (hF : LoopFoot F g q n) :
    Str F [.lea sp sp (-8), .load ra sp 0, .storeGs 0 sp] u
      { iter sp ra off u with flags := u.flags } := by
  have he : Covers F (u.regs sp - 8) 8 := by
    rw [h.sp, ← entAddr_zero]; exact hF.ent 0 (by omega)
  refine .cons (s1 := u.set sp (u.regs sp - 8)) (touches_none rfl) ?_
    (.cons (s1 := (u.set sp (u.regs sp - 8)).set ra (u.mem.read64 (u.regs sp - 8)))
      (touches_one rfl ?_) ?_ (.cons (touches_one rfl ?_) ?_ .nil))
  · simp [exec, State.ea, sub_eq_add_neg8]
  · simpa [State.ea, State.set] using he
  · simp [exec, State.ea, State.set]
  · simpa [State.gsa, State.set, h.gs] using hF.gs
  · simp [exec, iter, State.gsa, State.set, h12]

/-- A loop which lets go compared an entry with what the slot of the return address held
at that moment. -/
theorem raced_loop {F : W → Prop} {M : Nat → W → Prop} (hM : ∀ t x, M t x → ¬ F x) {w : Code}
    {sp ra : Reg} {off : Int} {k : Code} {g R ret : W} (hw : HasLoop w sp ra off k)
    (h12 : sp ≠ ra) (h1 : sp ≠ .rsp) (h2 : ra ≠ .rsp) (n : Nat) :
    ∀ (q : W) (e : Nat → W) (u s : State) (t te : Nat) (se : State),
      LoopHyp sp ra off g R ret q e n u → LoopFoot F g q n → GuardLike (e n) → AgreeOn F u s →
      Raced M w t (loopCode sp ra off k) s te [] se →
      ∃ i t1 km sm t2 u2 s2, i ≤ n ∧ Seg F M w t (loopCode sp ra off k) s t1 km sm ∧
        sm.mem.read64 R = e i ∧ Seg F M w t1 km sm t2 k s2 ∧ Raced M w t2 k s2 te [] se ∧
        AgreeOn F u2 s2 ∧ LoopPost sp ra u u2 ∧ u2.mem.read64 g = entAddr q i := by
  induction n with
  | zero => ?_
  | succ n ih => ?_
  all_goals
    intro q e u s t te se h hF hlow ha hr
    obtain ⟨t1, s1, g1, a1, r1⟩ := raced_str hM (str_iter h12 h hF) (k := (.cmpMem ra .rsp off ::
      .je .done :: .cmpDword sp 0 :: .je .error :: .jmp .loop :: .bind .error :: .illegal ::
      .bind .done :: k)) ha hr
    obtain ⟨t2, sm, k2, s2, g2, a2, go2, r2⟩ := raced_first hM r1 rfl rfl
    have am := a1.trans a2
    have hR : sm.ea .rsp off = R := by
      have : sm.regs .rsp = u.regs .rsp := by
        rw [am.regs]; simp [iter, State.set, h1.symm, h2.symm]
      rw [State.ea, this, h.slot]
    have hra : sm.regs ra = e 0 := by
      rw [am.regs]
      simp only [iter, State.set, if_true]
      rw [h.sp, ← entAddr_zero, h.ent 0 (by omega)]
    have hex : exec (.cmpMem ra .rsp off) sm =
        .next { sm with flags := cmpFlags (e 0) (sm.mem.read64 R) } := by
      simp only [exec, hR, hra]
    obtain ⟨rfl, rfl⟩ := go2.det (.next hex)
    have g3 : Seg F M w t2 _ sm (t2 + 1) _ _ := seg_go go2 (fun _ _ => rfl)
    have a3 : AgreeOn F { iter sp ra off u with flags := cmpFlags (e 0) (sm.mem.read64 R) }
        { sm with flags := cmpFlags (e 0) (sm.mem.read64 R) } :=
      ⟨am.regs, rfl, am.gs, am.mem⟩
    by_cases hv : e 0 = sm.mem.read64 R
    · obtain ⟨t4, s4, g4, a4, r4⟩ := raced_goto hM a3 (touches_none rfl)
        (l := .done) (u1 := { iter sp ra off u with flags := cmpFlags (e 0) (sm.mem.read64 R) })
        (by simp only [exec, State.zf, cmpFlags_zf]; rw [if_pos]; simpa using hv) hw.done r2
      refine ⟨0, t2, _, sm, t4, _, s4, by omega, g1.trans g2, hv.symm, g3.trans g4, r4, a4,
        (LoopPost.iter sp ra off u).setFlags _, ?_⟩
      simp only [iter]
      rw [h.gs, read64_write64, h.sp, entAddr_zero]
    · obtain ⟨t4, s4, g4, a4, r4⟩ := raced_next hM a3 (touches_none rfl)
        (u1 := { iter sp ra off u with flags := cmpFlags (e 0) (sm.mem.read64 R) })
        (by simp only [exec, State.zf, cmpFlags_zf]; rw [if_neg]; simpa using hv) r2
      obtain ⟨t5, s5, g5, a5, r5⟩ := raced_next hM a4 (u1 := { iter sp ra off u with
          flags := cmpFlags ((e 0).setWidth 32) (BitVec.ofInt 32 0) }) (touches_one rfl (by
            have : (iter sp ra off u).regs sp = entAddr q 0 := by
              simp [iter, State.set, h12, h.sp, entAddr_zero]
            simp only [this]
            exact (hF.ent 0 (by omega)).sub (by rw [BitVec.sub_self]; decide))) (by
          have := iter_read32 h12 h
          simp only [exec, this]) r4
      by_cases hz : (e 0).setWidth 32 = 0#32
      · obtain ⟨t6, s6, g6, a6, r6⟩ := raced_goto hM a5 (touches_none rfl)
          (l := .error) (u1 := { iter sp ra off u with
            flags := cmpFlags ((e 0).setWidth 32) (BitVec.ofInt 32 0) })
          (by simp only [exec, State.zf, cmpFlags_zf]; rw [if_pos]; simpa using hz) hw.error r5
        exact (raced_illegal r6).elim
      · first
        | exact absurd hlow hz
        | obtain ⟨t6, s6, g6, a6, r6⟩ := raced_next hM a5 (touches_none rfl)
            (u1 := { iter sp ra off u with
              flags := cmpFlags ((e 0).setWidth 32) (BitVec.ofInt 32 0) })
            (by simp only [exec, State.zf, cmpFlags_zf]; rw [if_neg]; simpa using hz) r5
          obtain ⟨t7, s7, g7, a7, r7⟩ := raced_goto hM a6 (touches_none rfl) rfl hw.loop r6
          obtain ⟨i, t8, km, sm', t9, u9, s9, hi, x1, x2, x3, x4, x5, x6, x7⟩ :=
            ih (q - 8) (fun i => e (i + 1)) _ s7 t7 te se ((h.iter h12 h1 h2).setFlags _) hF.down
              hlow a7 r7
          exact ⟨i + 1, t8, km, sm', t9, u9, s9, by omega,
            g1.trans (g2.trans (g3.trans (g4.trans (g5.trans (g6.trans (g7.trans x1)))))),
            x2, x3, x4, x5, ((LoopPost.iter sp ra off u).setFlags _).trans x6,
            by rw [x7, entAddr_succ]⟩

/-! ## Whole checks -/

/-- What a snippet works with, apart from the slot of the return address: the thread's
region and the `n` bytes below the stack pointer. -/
def RaceFoot (g sp : W) (n : Nat) (x : W) : Prop :=
  InRange x g regionSize ∨ InRange x (sp - BitVec.ofNat 64 n) n

theorem raceFoot_region {g sp : W} {n a m : Nat} (h : a + m ≤ regionSize) :
    Covers (RaceFoot g sp n) (g + BitVec.ofNat 64 a) m := by
  intro x hx
  have hr : regionSize = 8388608 := rfl
  exact Or.inl (inRange_sub hx (by rw [off_toNat (by omega)]; exact h))

theorem raceFoot_gs {g sp : W} {n : Nat} : Covers (RaceFoot g sp n) g 8 := by
  have := raceFoot_region (g := g) (sp := sp) (n := n) (a := 0) (m := 8) (by decide)
  rwa [gs_zero] at this

theorem raceFoot_save {g sp : W} {n : Nat} :
    Covers (RaceFoot g sp n) (sp - BitVec.ofNat 64 n) n := fun _ hx => Or.inr hx

theorem Apart.notFoot {g R : W} {n : Nat} {s : State} (h : Apart g R n s) {x : W}
    (hx : InRange x R 8) : ¬ RaceFoot g (s.regs .rsp) n x := by
  rintro (hf | hf)
  · exact sep_not_inRange h.ret hx hf
  · exact sep_not_inRange h.ret_save hx hf

/-- A recorded shadow stack is in the region. -/
theorem Recorded.stays {g : W} {l : List W} {s s' : State} (h : Recorded g l s) (hg : s'.gs = s.gs)
    (hm : ∀ x, InRange x g regionSize → s'.mem x = s.mem x) : Recorded g l s' := by
  refine h.keep hg fun x hx => hm x ?_
  rcases hx with hx | hx
  · exact inRange_sub hx (by rw [BitVec.sub_self]; decide)
  · exact inRange_sub hx (by
      have : g + 16 - g = 16#64 := by bv_omega
      rw [this]; decide)

theorem Recorded.agree {F : W → Prop} {g : W} {l : List W} {s s' : State} (h : Recorded g l s)
    (ha : AgreeOn F s s') (hF : ∀ x, InRange x g regionSize → F x) : Recorded g l s' :=
  h.stays ha.gs fun x hx => ha.mem x (hF x hx)

/-- A search of the shadow stack within the snippet `w`, from which the execution goes on with `post`. -/
theorem raced_shape {pre post : Code} {c1 : Code} {t : Temps} {off0 : Int} {t1 t2 : Reg} {b1 b2 : Bool}
    (hpre : ∀ l i, i ∈ pre → i.binds l = false) (hs : Shape c1 t off0 t1 t2 b1 b2) {w : Code}
    (hw : w = pre ++ (c1 ++ (validateRa t1 t2 t ++ (restoreCode t1 t2 b1 b2 ++ post))))
    {g : W} {l : List W} {s : State} (h : Recorded g l s)
    (ha : Apart g (s.regs .rsp + BitVec.ofInt 64 off0) (nsave b1 b2) s) {M : Nat → W → Prop}
    (hM : ∀ t x, M t x → ¬ RaceFoot g (s.regs .rsp) (nsave b1 b2) x) {t0 te : Nat} {se : State}
    (hr : Raced M w t0 (c1 ++ (validateRa t1 t2 t ++ (restoreCode t1 t2 b1 b2 ++ post))) s te [] se) :
    ∃ i tm km sm tf u3 sf, i ≤ l.length ∧
      Seg (RaceFoot g (s.regs .rsp) (nsave b1 b2)) M w t0
        (c1 ++ (validateRa t1 t2 t ++ (restoreCode t1 t2 b1 b2 ++ post))) s tm km sm ∧
      sm.mem.read64 (s.regs .rsp + BitVec.ofInt 64 off0) = s.entry i ∧
      Seg (RaceFoot g (s.regs .rsp) (nsave b1 b2)) M w tm km sm tf post sf ∧
      Raced M w tf post sf te [] se ∧ AgreeOn (RaceFoot g (s.regs .rsp) (nsave b1 b2)) u3 sf ∧
      Checked (freeOf t1 t2 b1 b2) (nsave b1 b2) i s u3 := by
  have hsep := h.checkSep ha
  have hroom := h.room
  have hloop : HasLoop w t1 t2 t.spOffset (restoreCode t1 t2 b1 b2 ++ post) := by
    rw [hw, ← List.append_assoc]
    refine hasLoop ?_
    intro l i hi
    rcases List.mem_append.1 hi with hi | hi
    · exact hpre l i hi
    · rw [hs.code] at hi; exact saveCode_binds _ _ _ _ l i hi
  obtain ⟨u1, p1, a1⟩ := str_save (F := RaceFoot g (s.regs .rsp) (nsave b1 b2)) t1 t2 b1 b2 s
    hs.rsp2 raceFoot_save
  obtain ⟨v1, v2, v3⟩ := a1.view hsep
  rw [← hs.code] at p1
  obtain ⟨ta, sa, ga, aa, ra⟩ := raced_str hM p1 ⟨rfl, rfl, rfl, fun _ _ => rfl⟩ hr
  obtain ⟨tb, sb, gb, ab, rb⟩ := raced_next hM aa (u1 := u1.set t1 u1.shadow)
    (touches_one rfl (by simpa [State.gsa, a1.gs, h.gs] using raceFoot_gs))
    (by simp [exec, State.gsa, State.shadow]) ra
  obtain ⟨tc, sc, gc, ac, rc⟩ := raced_next hM ab (u1 := u1.set t1 u1.shadow) (touches_none rfl)
    rfl rb
  have hR1 : u1.regs .rsp + BitVec.ofInt 64 t.spOffset = s.regs .rsp + BitVec.ofInt 64 off0 := by
    rw [a1.rsp, hs.off, ret_addr]
  have hyp : LoopHyp t1 t2 t.spOffset g (s.regs .rsp + BitVec.ofInt 64 off0)
      (u1.mem.read64 (s.regs .rsp + BitVec.ofInt 64 off0)) u1.shadow u1.entry l.length
      (u1.set t1 u1.shadow) :=
    { gs := a1.gs.trans h.gs
      sp := by simp [State.set]
      slot := by simpa [State.set, hs.rsp1.symm] using hR1
      ret := rfl
      ent := fun _ _ => rfl
      sepR := by rw [← h.gs]; exact hsep.ret_gs
      sepE := by intro i hi; rw [v1, ← h.gs]; exact hsep.ent_gs i (by omega) }
  have hF : LoopFoot (RaceFoot g (s.regs .rsp) (nsave b1 b2)) g u1.shadow l.length :=
    ⟨raceFoot_gs, by
      intro i hi
      rw [v1]
      have := h.slot hi
      unfold entAddr
      rw [this]
      exact raceFoot_region (by omega)⟩
  obtain ⟨i, tm, km, sm, td, u2, sd, hi, x1, x2, x3, x4, x5, x6, x7⟩ := raced_loop hM hloop hs.ne
    hs.rsp1 hs.rsp2 l.length _ _ _ _ _ _ _ hyp hF
    (by rw [v3 _ (by omega), h.holds.guard]; exact guardLike_zero) ac rc
  have hrsp2 : u2.regs .rsp = s.regs .rsp - BitVec.ofNat 64 (nsave b1 b2) := by
    rw [x6.regs _ hs.rsp1.symm hs.rsp2.symm]
    simpa [State.set, hs.rsp1.symm] using a1.rsp
  obtain ⟨u3, p4⟩ := str_restore (F := RaceFoot g (s.regs .rsp) (nsave b1 b2)) t1 t2 b1 b2 u2 hs.rsp2
    (by rw [hrsp2]; exact raceFoot_save)
  obtain ⟨u3', hres, hen⟩ := ends_restore [] [] t1 t2 b1 b2 u2 hs.rsp1 hs.rsp2 hs.ne
  have : u3' = u3 := by
    obtain ⟨n, hn⟩ := hen _ (ends_nil [] u3')
    obtain ⟨m, hm⟩ := p4.ends
    have := run_det hn hm
    injection this with this
  subst this
  obtain ⟨tf, sf, gf, af, rf⟩ := raced_str hM p4 x5 x4
  refine ⟨i, tm, km, sm, tf, u3', sf, hi, ga.trans (gb.trans (gc.trans x1)),
    x2.trans (v3 i (by omega)), x3.trans gf, rf, af, ?_, ?_⟩
  · rw [State.shadow, hres.mem, hres.gs, x6.gs]
    have e1 : (u1.set t1 u1.shadow).gs = g := a1.gs.trans h.gs
    rw [e1, x7, v1]
    rfl
  · have := ends_frame (areas := [(s.gs, 8)]) a1 hres hs.rsp1 hs.rsp2 (s2 := u2) ?_ ?_ ?_ ?_
    · exact this
    · intro r hr1 hr2
      rw [x6.regs r hr1 hr2]
      simp [State.set, hr1]
    · exact x6.gs
    · intro x hx
      exact x6.mem x (by
        have : (u1.set t1 u1.shadow).gs = s.gs := a1.gs
        rw [this]; exact hx _ (List.mem_cons_self ..))
    · intro p hp
      rw [List.mem_singleton] at hp
      subst hp; exact hsep.gs_save.symm

/-- What has been found, in terms of the recorded addresses. -/
theorem found_entry {F : W → Prop} {g R : W} {l : List W} {s u se : State} {n i : Nat} {free : Reg → Prop}
    (h : Recorded g l s) (ha : Apart g R n s) (hi : i ≤ l.length) (hc : Checked free n i s u)
    (hu : AgreeOn F u se) (hF : ∀ x, InRange x g regionSize → F x) :
    (∃ pre post, l = pre ++ s.entry i :: post ∧ Recorded g post se) ∨
      (s.entry i = 0 ∧ se.shadow = g + 24) := by
  rcases Nat.lt_or_ge i l.length with hlt | hge
  · left
    refine ⟨l.take i, l.drop (i + 1), ?_, ?_⟩
    · rw [h.holds.entries i hlt, ← List.drop_eq_getElem_cons hlt, List.take_append_drop]
    · exact (h.check ha hlt hc).agree hu hF
  · right
    have : i = l.length := by omega
    refine ⟨by rw [this, h.holds.guard]; rfl, ?_⟩
    have e : se.shadow = u.shadow := by
      rw [State.shadow, State.shadow, hu.gs]
      have : u.gs = g := hc.same.gs.trans h.gs
      rw [this]
      exact agree_read hu fun x hx => hF x (inRange_sub hx (by rw [BitVec.sub_self]; decide))
    rw [e, hc.pointer, h.slot hi, this, Nat.sub_self]
    rfl

/-- How a check which lets go runs while others write to memory: until the comparison at
time `t1`, and from it on. -/
structure RacedCheck (M : Nat → W → Prop) (code : Code) (R g : W) (l : List W) (free : Reg → Prop)
    (t0 : Nat) (s : State) (te : Nat) (se : State) (t1 : Nat) (km : Code) (sm : State) : Prop where
  before : Raced M code t0 code s t1 km sm
  after : Raced M code t1 km sm te [] se
  le : t1 ≤ te
  /-- the slot then holds an address which is recorded, or 0 like the guard word, to which the
  shadow pointer is moved -/
  found : (∃ pre post, l = pre ++ sm.mem.read64 R :: post ∧ Recorded g post se) ∨
    (sm.mem.read64 R = 0 ∧ se.shadow = g + 24)
  /-- from then on only others change the slot -/
  quiet : (∀ j, t1 ≤ j → j < te → ∀ x, InRange x R 8 → ¬ M j x) →
    se.mem.read64 R = sm.mem.read64 R
  regs : ∀ r, ¬ free r → se.regs r = s.regs r
  rsp : se.regs .rsp = s.regs .rsp
  gs : se.gs = s.gs

theorem IsCheck.raced {code : Code} {d : Int} {n : Nat} {free : Reg → Prop}
    (hc : IsCheck code d n free) {g : W} {l : List W} {s : State} (h : Recorded g l s)
    (ha : Apart g (s.regs .rsp + BitVec.ofInt 64 d) n s) {M : Nat → W → Prop}
    (hM : ∀ t x, M t x → ¬ RaceFoot g (s.regs .rsp) n x) {t0 te : Nat} {se : State}
    (hr : Raced M code t0 code s te [] se) :
    ∃ t1 km sm, RacedCheck M code (s.regs .rsp + BitVec.ofInt 64 d) g l free t0 s te se t1 km sm := by
  obtain ⟨fl, sm, uo, bs, addr, mid, hf, hm, hok, hcode, rfl, rfl, rfl⟩ := hc
  obtain ⟨c1, t, t1, t2, b1, b2, he, hs, hn, hfree⟩ := (chosen_pop hok).out
  have ecode : code = c1 ++ (validateRa t1 t2 t ++ (restoreCode t1 t2 b1 b2 ++ [])) := by
    simp [jitStackPop, hf.notEmpty, hm, stackPopWith, he, body, hs.tmp1, hs.tmp2, hf.notSave,
      hf.noFrame, hs.restore] at hcode
    rw [← hcode, List.append_nil]
  rw [← hn] at ha hM
  conv at hr => arg 4; rw [ecode]
  obtain ⟨i, tm, km, sm, tf, u3, sf, hi, x1, x2, x3, x4, x5, hchk⟩ := raced_shape (pre := [])
    (by simp) hs (by rw [ecode]; rfl) h ha hM hr
  obtain ⟨gg, ag⟩ := raced_nil hM x4 rfl
  have aend := x5.trans ag
  have gall := x3.trans gg
  have ge : Raced M code t0 code s tm km sm := by
    have := x1.run
    rwa [← ecode] at this
  refine ⟨tm, km, sm, ge, gall.run, gall.le, ?_, ?_, ?_, ?_, ?_⟩
  · rw [x2]
    exact found_entry h ha hi hchk aend fun x hx => Or.inl hx
  · intro hq
    refine read64_eq _ _ _ fun x hx => ?_
    exact gall.keeps x (ha.notFoot hx) fun j h1 h2 => hq j h1 h2 x hx
  · intro r hfr
    rw [aend.regs]
    exact hchk.same.regs r fun hf' => hfr (hfree r hf')
  · rw [aend.regs]; exact hchk.same.rsp
  · rw [aend.gs]; exact hchk.same.gs

/-! ## Whole pushes -/

theorem AgreeOn.symm {F : W → Prop} {s s' : State} (h : AgreeOn F s s') : AgreeOn F s' s :=
  ⟨h.regs.symm, h.flags.symm, h.gs.symm, fun x hx => (h.mem x hx).symm⟩

theorem accesses_agree {F : W → Prop} {s s' : State} (h : AgreeOn F s s') (i : Instr) :
    accesses i s' = accesses i s := by
  cases i <;> simp [accesses, State.ea, State.gsa, h.regs, h.gs]

theorem Str.agree {F : W → Prop} {c : Code} {u u1 : State} (h : Str F c u u1) :
    ∀ {v : State}, AgreeOn F u v → ∃ v1, Str F c v v1 ∧ AgreeOn F u1 v1 := by
  induction h with
  | nil => intro v ha; exact ⟨v, .nil, ha⟩
  | @cons i k s s1 s2 ht he _ ih =>
    intro v ha
    have := exec_agree ha ht
    rw [he] at this
    cases hx : exec i v with
    | next a =>
      rw [hx] at this
      obtain ⟨v1, h1, h2⟩ := ih this.1
      refine ⟨v1, .cons ?_ hx h1, h2⟩
      intro p hp
      rw [accesses_agree ha] at hp
      exact ht p hp
    | goto l a => rw [hx] at this; exact this.elim
    | trap a => rw [hx] at this; exact this.elim

/-- How a push runs while others write to memory: until it loads the return address at
time `t1`, and from then on. -/
structure RacedPush (M : Nat → W → Prop) (code : Code) (R g : W) (l : List W) (free : Reg → Prop)
    (t0 : Nat) (s : State) (te : Nat) (se : State) (t1 : Nat) (km : Code) (sm : State) : Prop where
  before : Raced M code t0 code s t1 km sm
  after : Raced M code t1 km sm te [] se
  le : t0 ≤ t1
  /-- what the slot then holds is recorded -/
  records : Recorded g (sm.mem.read64 R :: l) se
  /-- until then only others change the slot -/
  quiet : (∀ j, t0 ≤ j → j < t1 → ∀ x, InRange x R 8 → ¬ M j x) →
    sm.mem.read64 R = s.mem.read64 R
  /-- and from then on too -/
  keeps : (∀ j, t1 ≤ j → j < te → ∀ x, InRange x R 8 → ¬ M j x) →
    se.mem.read64 R = sm.mem.read64 R
  regs : ∀ r, ¬ free r → se.regs r = s.regs r
  rsp : se.regs .rsp = s.regs .rsp
  flags : se.flags = s.flags
  gs : se.gs = s.gs

theorem IsPush.raced {code : Code} {d : Int} {n : Nat} {free : Reg → Prop}
    (hc : IsPush code d n free) {g : W} {l : List W} {s : State} (h : Recorded g l s)
    (ha : Apart g (s.regs .rsp + BitVec.ofInt 64 d) n s)
    (hroom : 32 + 8 * l.length + 8 ≤ regionSize) {M : Nat → W → Prop}
    (hM : ∀ t x, M t x → ¬ RaceFoot g (s.regs .rsp) n x) {t0 te : Nat} {se : State}
    (hr : Raced M code t0 code s te [] se) :
    ∃ t1 km sm, RacedPush M code (s.regs .rsp + BitVec.ofInt 64 d) g l free t0 s te se t1 km sm := by
  have hc' := hc
  obtain ⟨fl, sm, uo, ht, uf, bs, ts, mid, hf, hm, hok, hcode, rfl, rfl, rfl⟩ := hc
  obtain ⟨c1, t, t1, t2, b1, b2, he, hs, hn, _⟩ := (chosen_push hok ht).out
  have ecode : code = saveCode t1 t2 b1 b2 ++ (saveRa t1 t2 t ++ restoreCode t1 t2 b1 b2) := by
    simp [jitStackPush, hf.notEmpty, hm, stackPushWith, he, body, hs.tmp1, hs.tmp2, hf.notSave,
      hf.noFrame, hs.restore] at hcode
    rw [← hcode, hs.code]
  rw [← hn] at ha hM hc'
  generalize hRdef : s.regs .rsp + BitVec.ofInt 64 (pushDisp _ mid ht) = R at ha ⊢
  obtain ⟨u1, p1, a1⟩ := str_save (F := RaceFoot g (s.regs .rsp) (nsave b1 b2)) t1 t2 b1 b2 s
    hs.rsp2 raceFoot_save
  conv at hr => arg 4; rw [ecode]
  obtain ⟨ta, sa, ga, aa, ra⟩ := raced_str hM p1 (k := saveRa t1 t2 t ++ restoreCode t1 t2 b1 b2)
    ⟨rfl, rfl, rfl, fun _ _ => rfl⟩ hr
  obtain ⟨tm, sm, k2, s2, gm, am, go, rm⟩ := raced_first hM ra rfl rfl
  -- the same execution, alone, in a state where the slot holds this from the start
  let v := sm.mem.read64 R
  let s' : State := { s with mem := s.mem.write64 R v }
  have hss : AgreeOn (RaceFoot g (s.regs .rsp) (nsave b1 b2)) s s' := by
    refine ⟨rfl, rfl, rfl, fun x hx => write64_outRange _ _ _ _ fun hR => ?_⟩
    exact ha.notFoot hR hx
  have h' : Recorded g l s' := h.agree hss fun x hx => Or.inl hx
  have ha' : Apart g R (nsave b1 b2) s' := ⟨ha.ret, ha.save, ha.ret_save⟩
  have hsep := h'.pushSep ha' hroom
  have hv : s'.mem.read64 R = v := read64_write64 ..
  obtain ⟨v1, q1, b1'⟩ := p1.agree hss
  have c1' : AfterSave t1 t2 b1 b2 s' v1 := by
    obtain ⟨w1, hw, he⟩ := ends_save [] [] t1 t2 b1 b2 s' hs.rsp2
    obtain ⟨n, hn⟩ := he _ (ends_nil [] w1)
    obtain ⟨m, hm⟩ := q1.ends
    have := run_det hn hm
    injection this with this
    subst this; exact hw
  have hR1 : v1.ea .rsp t.spOffset = R := by
    rw [State.ea, c1'.rsp, hs.off, ret_addr]; exact hRdef
  have hvR : v1.mem.read64 R = v := by
    rw [← hv]; exact read64_of_sep c1'.mem hsep.ret_save
  have hsh : v1.mem.read64 v1.gs = s'.shadow := by
    rw [c1'.gs]; exact read64_of_sep c1'.mem hsep.gs_save
  have av := b1'.symm.trans (aa.trans am)
  have hRm : sm.ea .rsp t.spOffset = R := by
    rw [State.ea, av.regs]; exact hR1
  obtain ⟨rfl, rfl⟩ := go.det (.next (s' := sm.set t2 v) (by simp only [exec, hRm, v]))
  have am' : AgreeOn (RaceFoot g (s.regs .rsp) (nsave b1 b2)) (v1.set t2 v) (sm.set t2 v) :=
    ⟨by simp only [State.set, av.regs], av.flags, av.gs, av.mem⟩
  have hgs1 : v1.gs = g := c1'.gs.trans h'.gs
  have hptr : s'.shadow = g + BitVec.ofNat 64 (32 + 8 * l.length) := h'.pointer
  have q2 : ∃ w, Str (RaceFoot g (s.regs .rsp) (nsave b1 b2))
      [.loadGs t1 0, .store t1 0 t2, .lea t1 t1 8, .storeGs 0 t1] (v1.set t2 v) w := by
    refine ⟨_, .cons (touches_one rfl ?_) rfl (.cons (touches_one rfl ?_) rfl
      (.cons (touches_none rfl) rfl (.cons (touches_one rfl ?_) rfl .nil)))⟩
    · simpa [State.gsa, State.set, hgs1] using raceFoot_gs
    · have := raceFoot_region (g := g) (sp := s.regs .rsp) (n := nsave b1 b2)
        (a := 32 + 8 * l.length) (m := 8) hroom
      rw [← hptr, ← hsh] at this
      simpa [State.gsa, State.set, State.ea] using this
    · simpa [State.gsa, State.set, State.ea, hgs1] using raceFoot_gs
  obtain ⟨v2, q2⟩ := q2
  have hv2 : v2.regs .rsp = v1.regs .rsp := by
    obtain ⟨w2, hr, _, _, _, he⟩ := ends_saveRa [] [] t1 t2 t v1 hs.ne
    obtain ⟨n, hn⟩ := he _ (ends_nil [] w2)
    have q : Path (fun _ => True) [] (saveRa t1 t2 t ++ []) v1 [] v2 := by
      refine .step (fun _ _ _ _ => trivial) (.next (s' := v1.set t2 v) ?_) ?_
      · simp only [exec, hR1, hvR]
      · have hall : ∀ {c u u'}, Str (RaceFoot g (s.regs .rsp) (nsave b1 b2)) c u u' →
            Str (fun _ => True) c u u' := by
          intro c u u' h
          induction h with
          | nil => exact .nil
          | cons _ he _ ih => exact .cons (fun _ _ _ _ => trivial) he ih
        exact (hall q2).path [] []
    obtain ⟨m, hm⟩ := q.ends (ends_nil _ _)
    have := run_det hn hm
    injection this with this
    subst this
    exact hr _ hs.rsp1.symm hs.rsp2.symm
  obtain ⟨v3, q3⟩ := str_restore (F := RaceFoot g (s.regs .rsp) (nsave b1 b2)) t1 t2 b1 b2 v2 hs.rsp2
    (by rw [hv2, c1'.rsp]; exact raceFoot_save)
  obtain ⟨tb, sb, gb, ab, rb⟩ := raced_str hM q2 (k := restoreCode t1 t2 b1 b2) am' rm
  obtain ⟨tf, sf, gf, af, rf⟩ := raced_str hM q3 (k := []) ab (by rw [List.append_nil]; exact rb)
  rw [List.append_nil] at gf
  obtain ⟨gg, ag⟩ := raced_nil hM rf rfl
  have aend := af.trans ag
  -- what it does alone
  obtain ⟨w3, hex, hpush⟩ := hc'.run (s := s') (by rw [hRdef]; exact hsep)
  rw [show s'.regs .rsp = s.regs .rsp from rfl, hRdef] at hpush
  have hw3 : w3 = v3 := by
    have q : Ends code code s' (.exit v3) := by
      conv => arg 2; rw [ecode]
      refine (q1.path code _).ends ?_
      refine ends_next (s' := v1.set t2 v) (by simp only [exec, hR1, hvR]) ?_
      refine (q2.path code _).ends ?_
      have := (q3.path code []).ends (ends_nil code v3)
      rwa [List.append_nil] at this
    obtain ⟨m, hm⟩ := q
    obtain ⟨n, hn⟩ := (exits_iff ..).1 hex
    have := run_det hn hm
    injection this with this
  subst hw3
  have hrec := (h'.push ha' hroom hpush).agree aend fun x hx => Or.inl hx
  rw [hv] at hrec
  have ge : Raced M code t0 code s tm (saveRa t1 t2 t ++ restoreCode t1 t2 b1 b2) sm := by
    have := (ga.trans gm).run
    rwa [← ecode] at this
  have gall := (seg_go (F := RaceFoot g (s.regs .rsp) (nsave b1 b2)) (M := M) (t := tm) go
    (fun _ _ => rfl)).trans (gb.trans (gf.trans gg))
  refine ⟨tm, _, sm, ge, gall.run, (ga.trans gm).le, hrec, ?_, ?_, ?_, ?_, ?_, ?_⟩
  rotate_left
  · intro hq
    refine read64_eq _ _ _ fun x hx => ?_
    exact gall.keeps x (ha.notFoot hx) fun j h1 h2 => hq j h1 h2 x hx
  rotate_right
  · intro hq
    refine read64_eq _ _ _ fun x hx => ?_
    exact (ga.trans gm).keeps x (ha.notFoot hx) fun j h1 h2 => hq j h1 h2 x hx
  · intro r hfr
    rw [aend.regs]; exact hpush.same.regs r hfr
  · rw [aend.regs]; exact hpush.same.rsp
  · rw [aend.flags]; exact hpush.flags
  · rw [aend.gs]; exact hpush.same.gs

/-! ## Register frames -/

/-- A register push keeps what the slot holds at one moment in the register. -/
structure RacedRegPush (M : Nat → W → Prop) (code : Code) (R g : W) (l : List W) (reg : Reg)
    (t0 : Nat) (s : State) (te : Nat) (se : State) (t1 : Nat) (km : Code) (sm : State) : Prop where
  before : Raced M code t0 code s t1 km sm
  after : Raced M code t1 km sm te [] se
  kept : se.regs reg = sm.mem.read64 R
  quiet : (∀ j, t0 ≤ j → j < t1 → ∀ x, InRange x R 8 → ¬ M j x) →
    sm.mem.read64 R = s.mem.read64 R
  /-- the register is saved in the region -/
  saved : se.mem.read64 (g + 8) = s.regs reg
  recorded : Recorded g l se
  regs : ∀ r, r ≠ reg → se.regs r = s.regs r
  gs : se.gs = s.gs

theorem IsRegPush.raced {code : Code} {reg : Reg} {d : Int} (hc : IsRegPush code reg d)
    {g : W} {l : List W} {s : State} (h : Recorded g l s)
    (ha : Sep (s.regs .rsp + BitVec.ofInt 64 d) 8 g regionSize) {M : Nat → W → Prop}
    (hM : ∀ t x, M t x → ¬ InRange x g regionSize) {t0 te : Nat} {se : State}
    (hr : Raced M code t0 code s te [] se) :
    ∃ t1 km sm, RacedRegPush M code (s.regs .rsp + BitVec.ofInt 64 d) g l reg t0 s te se t1 km sm := by
  obtain ⟨fl, sm, hf, hrc, hcode⟩ := hc
  have ecode : code = [.storeGs 8 reg, .load reg .rsp d] := by
    simp [jitRegisterPush, hf.notEmpty, hf.notSave, hrc.get] at hcode
    exact hcode.symm
  have hcov : Covers (fun x => InRange x g regionSize) (g + 8) 8 := fun x hx =>
    inRange_sub hx (by
      have : g + 8 - g = 8#64 := by bv_omega
      rw [this]; decide)
  conv at hr => arg 4; rw [ecode]
  obtain ⟨ta, sa, ga, aa, ra⟩ := raced_next (F := fun x => InRange x g regionSize) hM (u := s)
    (u1 := { s with mem := s.mem.write64 (g + 8) (s.regs reg) }) ⟨rfl, rfl, rfl, fun _ _ => rfl⟩
    (touches_one rfl (by simpa [State.gsa, h.gs] using hcov)) (by simp [exec, State.gsa, h.gs]) hr
  obtain ⟨tm, sm, k2, s2, gm, am, go, rm⟩ := raced_first hM ra rfl rfl
  have av := aa.trans am
  obtain ⟨rfl, rfl⟩ := go.det (.next (s' := sm.set reg (sm.mem.read64 (s.regs .rsp + BitVec.ofInt 64 d)))
    (by simp only [exec, State.ea, av.regs]))
  obtain ⟨gg, ag⟩ := raced_nil hM rm rfl
  have hnot : ∀ x, InRange x (s.regs .rsp + BitVec.ofInt 64 d) 8 → ¬ InRange x g regionSize :=
    fun x hx => sep_not_inRange ha hx
  have hrec : Recorded g l { s with mem := s.mem.write64 (g + 8) (s.regs reg) } := by
    refine h.keep rfl fun x hx => write64_outRange _ _ _ _ ?_
    rcases hx with hx | hx
    · have := sep_offsets g (a := 0) (n := 8) (b := 8) (m := 8) (by decide) (by decide)
        (Or.inl (by decide)) (by decide) (by decide)
      rw [gs_zero] at this
      exact sep_not_inRange this hx
    · exact sep_not_inRange (sep_offsets g (a := 16) (n := regionSize - 16) (b := 8) (m := 8)
        (by decide) (by decide) (Or.inr (by decide)) (by decide) (by decide)) hx
  have hmem : ∀ x, InRange x g regionSize → se.mem x = s.mem.write64 (g + 8) (s.regs reg) x :=
    fun x hx => (ag.mem x hx).trans (av.mem x hx)
  refine ⟨tm, [.load reg .rsp d], sm, ?_, (Raced.instr go .refl).trans gg.run, ?_, ?_, ?_, ?_, ?_, ?_⟩
  · have := (ga.trans gm).run
    rw [ecode] at this ⊢; exact this
  · rw [ag.regs]; simp [State.set]
  · intro hq
    refine read64_eq _ _ _ fun x hx => ?_
    exact (ga.trans gm).keeps x (hnot x hx) fun j h1 h2 => hq j h1 h2 x hx
  · rw [read64_eq _ _ _ fun x hx => hmem x (hcov x hx), read64_write64]
  · exact hrec.stays (ag.gs.trans av.gs) hmem
  · intro r hr'
    rw [ag.regs]; simp [State.set, hr', av.regs]
  · rw [ag.gs]; exact av.gs

/-- How a register pop which lets go runs while others write to memory. -/
structure RacedRegPop (M : Nat → W → Prop) (code : Code) (g : W) (l : List W) (reg : Reg)
    (t0 : Nat) (s : State) (te : Nat) (se : State) (t1 : Nat) (km : Code) (sm : State) : Prop where
  before : Raced M code t0 code s t1 km sm
  after : Raced M code t1 km sm te [] se
  le : t1 ≤ te
  /-- the slot then holds what is in the register, or a recorded address, or 0 -/
  found : (sm.mem.read64 (s.regs .rsp) = s.regs reg ∧ Recorded g l se) ∨
    (∃ pre post, l = pre ++ sm.mem.read64 (s.regs .rsp) :: post ∧ Recorded g post se) ∨
    (sm.mem.read64 (s.regs .rsp) = 0 ∧ se.shadow = g + 24)
  quiet : (∀ j, t1 ≤ j → j < te → ∀ x, InRange x (s.regs .rsp) 8 → ¬ M j x) →
    se.mem.read64 (s.regs .rsp) = sm.mem.read64 (s.regs .rsp)
  /-- the register has its former value again -/
  restored : se.regs reg = s.mem.read64 (g + 8)
  regs : ∀ r, r ≠ reg → se.regs r = s.regs r
  gs : se.gs = s.gs

theorem IsRegPop.raced {code : Code} {reg : Reg} (hc : IsRegPop code reg) {g : W} {l : List W} {s : State}
    (h : Recorded g l s) (ha : Apart g (s.regs .rsp) 16 s) {M : Nat → W → Prop}
    (hM : ∀ t x, M t x → ¬ RaceFoot g (s.regs .rsp) 16 x) {t0 te : Nat} {se : State}
    (hr : Raced M code t0 code s te [] se) :
    ∃ t1 km sm, RacedRegPop M code g l reg t0 s te se t1 km sm := by
  obtain ⟨fl, sm, hf, hrc, hcode⟩ := hc
  obtain ⟨t1, t2, t, c1, he, hs, hn1, hn2⟩ := regPop_emitted hf hrc
  rw [he] at hcode
  obtain rfl := Option.some.inj hcode
  generalize hw : regPopCode reg t1 t2 t c1 = w at hr ⊢
  have ek : w = .cmpMem reg .rsp 0 :: .je .success :: (c1 ++ (validateRa t1 t2 t ++
      (restoreCode t1 t2 true true ++ [.bind .success, .loadGs reg 8]))) := by
    rw [← hw]; simp [regPopCode]
  have ht : target .success w = some [.loadGs reg 8] := by
    rw [← hw]; unfold regPopCode
    rw [target_append]
    · rfl
    · intro i hi
      simp only [List.mem_append] at hi
      rcases hi with ((hi | hi) | hi) | hi
      · simp at hi; rcases hi with rfl | rfl <;> rfl
      · rw [hs.code] at hi; exact saveCode_binds _ _ _ _ _ i hi
      · simp [validateRa] at hi
        rcases hi with rfl | rfl | rfl | rfl | rfl | rfl | rfl | rfl | rfl | rfl | rfl | rfl | rfl <;>
          rfl
      · simp [restoreCode] at hi; rcases hi with rfl | rfl <;> rfl
  have hcov : Covers (RaceFoot g (s.regs .rsp) 16) (g + 8) 8 := by
    have := raceFoot_region (g := g) (sp := s.regs .rsp) (n := 16) (a := 8) (m := 8) (by decide)
    exact this
  have keep : ∀ {ta tb : Nat} {ka kb : Code} {sa sb : State},
      Seg (RaceFoot g (s.regs .rsp) 16) M w ta ka sa tb kb sb →
      (∀ j, ta ≤ j → j < tb → ∀ x, InRange x (s.regs .rsp) 8 → ¬ M j x) →
      sb.mem.read64 (s.regs .rsp) = sa.mem.read64 (s.regs .rsp) := by
    intro ta tb ka kb sa sb hg hq
    refine read64_eq _ _ _ fun x hx => ?_
    exact hg.keeps x (ha.notFoot hx) fun j h1 h2 => hq j h1 h2 x hx
  conv at hr => arg 4; rw [ek]
  obtain ⟨ta, sa, k2, s2, ga, aa, go, ra⟩ := raced_first hM hr rfl rfl
  have hra : sa.ea .rsp 0 = s.regs .rsp := by simp [State.ea, aa.regs]
  obtain ⟨rfl, rfl⟩ := go.det (.next (s' := { sa with
    flags := cmpFlags (s.regs reg) (sa.mem.read64 (s.regs .rsp)) }) (by
      simp only [exec, hra, aa.regs]))
  have g2 : Seg (RaceFoot g (s.regs .rsp) 16) M w ta _ sa (ta + 1) _ _ := seg_go go (fun _ _ => rfl)
  have ab : AgreeOn (RaceFoot g (s.regs .rsp) 16) { s with
      flags := cmpFlags (s.regs reg) (sa.mem.read64 (s.regs .rsp)) } { sa with
      flags := cmpFlags (s.regs reg) (sa.mem.read64 (s.regs .rsp)) } := ⟨aa.regs, rfl, aa.gs, aa.mem⟩
  -- the last instruction
  have last : ∀ {u sx : State} {tx : Nat}, u.gs = g → AgreeOn (RaceFoot g (s.regs .rsp) 16) u sx →
      Raced M w tx [.loadGs reg 8] sx te [] se →
      Seg (RaceFoot g (s.regs .rsp) 16) M w tx [.loadGs reg 8] sx te [] se ∧
        AgreeOn (RaceFoot g (s.regs .rsp) 16) (u.set reg (u.mem.read64 (g + 8))) se := by
    intro u sx tx hu hax hrx
    obtain ⟨ty, sy, gy, ay, ry⟩ := raced_next hM hax (u1 := u.set reg (u.mem.read64 (g + 8)))
      (touches_one rfl (by simpa [State.gsa, hu] using hcov)) (by simp [exec, State.gsa, hu]) hrx
    obtain ⟨gz, az⟩ := raced_nil hM ry rfl
    exact ⟨gy.trans gz, ay.trans az⟩
  by_cases heq : s.regs reg = sa.mem.read64 (s.regs .rsp)
  · obtain ⟨tb, sb, gb, abb, rb⟩ := raced_goto hM ab (touches_none rfl) (l := .success)
      (u1 := { s with flags := cmpFlags (s.regs reg) (sa.mem.read64 (s.regs .rsp)) })
      (by simp only [exec, State.zf, cmpFlags_zf]; rw [if_pos]; simpa using heq) ht ra
    obtain ⟨gc, ac⟩ := last (u := { s with
      flags := cmpFlags (s.regs reg) (sa.mem.read64 (s.regs .rsp)) }) h.gs abb rb
    have gall := g2.trans (gb.trans gc)
    refine ⟨ta, _, sa, ?_, gall.run, gall.le, Or.inl ⟨heq.symm, ?_⟩, keep gall, ?_, ?_, ?_⟩
    · have := ga.run
      rwa [← ek] at this ⊢
    · exact h.stays ac.gs fun x hx => ac.mem x (Or.inl hx)
    · rw [ac.regs]; simp [State.set]
    · intro r hr'
      rw [ac.regs]; simp [State.set, hr']
    · rw [ac.gs]; rfl
  · obtain ⟨tb, sb, gb, abb, rb⟩ := raced_next hM ab (touches_none rfl)
      (u1 := { s with flags := cmpFlags (s.regs reg) (sa.mem.read64 (s.regs .rsp)) })
      (by simp only [exec, State.zf, cmpFlags_zf]; rw [if_neg]; simpa using heq) ra
    have hb : Recorded g l sb := h.stays abb.gs fun x hx => abb.mem x (Or.inl hx)
    have hsp : sb.regs .rsp = s.regs .rsp := by rw [abb.regs]
    have e1 : sb.regs .rsp + BitVec.ofInt 64 0 = s.regs .rsp := by rw [hsp]; simp
    have hab : Apart g (sb.regs .rsp + BitVec.ofInt 64 0) (nsave true true) sb := by
      rw [e1]
      exact ⟨ha.ret, by rw [hsp]; exact ha.save, by rw [hsp]; exact ha.ret_save⟩
    obtain ⟨i, tm, km, sm, tf, u3, sf, hi, x1, x2, x3, x4, x5, hchk⟩ := raced_shape
      (pre := [.cmpMem reg .rsp 0, .je .success]) (by
        intro l i hi
        simp at hi
        rcases hi with rfl | rfl <;> rfl) hs (by rw [ek]; rfl) hb hab (by rw [hsp]; exact hM) rb
    rw [hsp] at x1 x3 x5
    obtain ⟨tg, sg, gg, ag, rg⟩ := raced_next hM x5 (touches_none rfl) rfl x4
    obtain ⟨gc, ac⟩ := last (hchk.same.gs.trans hb.gs) ag rg
    have gall := x3.trans (gg.trans gc)
    rw [e1] at x2
    have hmem8 : u3.mem.read64 (g + 8) = s.mem.read64 (g + 8) := by
      have h1 : sb.mem.read64 (g + 8) = s.mem.read64 (g + 8) := agree_read abb hcov
      rw [← h1]
      refine read64_eq _ _ _ fun x hx => hchk.same.mem x ?_
      intro p hp
      simp only [List.mem_cons, List.not_mem_nil, or_false] at hp
      rcases hp with rfl | rfl
      · rw [hb.gs]
        have := sep_offsets g (a := 8) (n := 8) (b := 0) (m := 8) (by decide) (by decide)
          (Or.inr (by decide)) (by decide) (by decide)
        rw [gs_zero] at this
        exact sep_not_inRange this hx
      · exact sep_not_inRange (sep_in (a := 8) hab.save (by decide)) hx
    have hregs : ∀ r, r ≠ reg → u3.regs r = s.regs r := by
      intro r _
      rw [hchk.same.regs r (by rintro (⟨_, h⟩ | ⟨_, h⟩) <;> exact absurd h (by decide)), abb.regs]
    refine ⟨tm, km, sm, ?_, gall.run, gall.le, Or.inr ?_, keep gall, ?_, ?_, ?_⟩
    · have := (ga.trans (g2.trans (gb.trans x1))).run
      rwa [← ek] at this
    · rw [x2]
      refine found_entry hb hab hi ⟨hchk.pointer, ?_⟩ (F := RaceFoot g (s.regs .rsp) 16)
        (u := u3.set reg (u3.mem.read64 (g + 8))) (free := fun r => r = reg) ac fun x hx => Or.inl hx
      refine ⟨?_, ?_, hchk.same.gs, hchk.same.mem⟩
      · simp [State.set, hrc.notSp.symm]
        exact hchk.same.rsp
      · intro r hr'
        simp [State.set, hr']
        rw [hregs r hr', abb.regs]
    · rw [ac.regs]; simpa [State.set] using hmem8
    · intro r hr'
      rw [ac.regs]; simp [State.set, hr', hregs r hr']
    · rw [ac.gs]
      exact (hchk.same.gs.trans abb.gs)

end Verif
