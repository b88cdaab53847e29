import Verif.Footprint

/-!
# Which memory a running snippet writes

As `Verif.Footprint`, for the bytes which an instruction writes: the return address is read only.
-/

namespace Verif.Wr

/-- The bytes an instruction writes, as ranges (address, length). -/
def stores : Instr → State → List (W × Nat)
  | .push _, s | .pushfq, s => [(s.regs .rsp - 8, 8)]
  | .store b d _, s => [(s.ea b d, 8)]
  | .storeGs d _, s | .addGs d _, s | .subGs d _, s => [(s.gsa d, 8)]
  | _, _ => []

/-- The instruction writes only to bytes in `F`. -/
def Writes (F : W → Prop) (i : Instr) (s : State) : Prop :=
  ∀ p, p ∈ stores i s → ∀ x, InRange x p.1 p.2 → F x

theorem writes_one {F : W → Prop} {i : Instr} {s : State} {a : W} {n : Nat}
    (e : stores i s = [(a, n)]) (h : Covers F a n) : Writes F i s := by
  intro p hp
  rw [e, List.mem_singleton] at hp
  subst hp; exact h

theorem writes_none {F : W → Prop} {i : Instr} {s : State} (e : stores i s = []) :
    Writes F i s := by
  intro p hp
  rw [e] at hp
  simp at hp

/-- An execution in which the instructions write only the bytes `F`. -/
inductive Path (F : W → Prop) (w : Code) : Code → State → Code → State → Prop
  | refl {k s} : Path F w k s k s
  | step {i k s k1 s1 k2 s2} : Writes F i s → Go w (i :: k) s k1 s1 →
      Path F w k1 s1 k2 s2 → Path F w (i :: k) s k2 s2

theorem Path.ends {F : W → Prop} {w k k1 : Code} {s s1 : State} {o : Outcome}
    (h : Path F w k s k1 s1) (he : Ends w k1 s1 o) : Ends w k s o := by
  induction h with
  | refl => exact he
  | step _ hg _ ih => exact hg.ends (ih he)

theorem Path.trans {F : W → Prop} {w k k1 k2 : Code} {s s1 s2 : State} (h : Path F w k s k1 s1)
    (h' : Path F w k1 s1 k2 s2) : Path F w k s k2 s2 := by
  induction h with
  | refl => exact h'
  | step a b _ ih => exact .step a b (ih h')

/-- Straight-line code. -/
inductive Str (F : W → Prop) : Code → State → State → Prop
  | nil {s} : Str F [] s s
  | cons {i k s s1 s2} : Writes F i s → exec i s = .next s1 → Str F k s1 s2 → Str F (i :: k) s s2

theorem Str.path {F : W → Prop} {c : Code} {s s' : State} (h : Str F c s s') (w k : Code) :
    Path F w (c ++ k) s k s' := by
  induction h with
  | nil => exact .refl
  | cons a b _ ih => exact .step a (.next b) ih

theorem Str.ends {F : W → Prop} {c : Code} {s s' : State} (h : Str F c s s') :
    Ends [] (c ++ []) s (.exit s') := (h.path [] []).ends (ends_nil _ _)

/-- A snippet whose every instruction writes only `F`, and which comes to an end. -/
inductive Within (F : W → Prop) (w : Code) (k : Code) (s : State) : Prop
  | exits (s') : Path F w k s [] s' → Within F w k s
  | traps (k' s') : Path F w k s (.illegal :: k') s' → Within F w k s

/-- Everything which is reached is on the way to the end. -/
theorem Path.reach {F : W → Prop} {w k k1 k2 : Code} {s s1 s2 : State} (h : Path F w k s k2 s2)
    (hend : ∀ k' s', ¬ Go w k2 s2 k' s') (hg : Go w k s k1 s1) : Path F w k1 s1 k2 s2 := by
  cases h with
  | refl => exact absurd hg (hend _ _)
  | step _ hg' h' =>
    obtain ⟨rfl, rfl⟩ := hg.det hg'
    exact h'

theorem go_nil {w : Code} {s : State} : ∀ k' s', ¬ Go w [] s k' s' := fun _ _ h => by cases h

theorem go_illegal {w k : Code} {s : State} : ∀ k' s', ¬ Go w (.illegal :: k) s k' s' := by
  intro k' s' h
  cases h with
  | next e => simp [exec] at e
  | goto e _ => simp [exec] at e

theorem Within.go {F : W → Prop} {w k k1 : Code} {s s1 : State} (h : Within F w k s)
    (hg : Go w k s k1 s1) : Within F w k1 s1 := by
  cases h with
  | exits s' hp => exact .exits s' (hp.reach go_nil hg)
  | traps k' s' hp => exact .traps k' s' (hp.reach go_illegal hg)

theorem Within.writes {F : W → Prop} {w k : Code} {i : Instr} {s : State}
    (h : Within F w (i :: k) s) : Writes F i s := by
  cases h with
  | exits s' hp => cases hp with | step a _ _ => exact a
  | traps k' s' hp =>
    cases hp with
    | refl => exact writes_none rfl
    | step a _ _ => exact a

/-! ## The parts of a snippet -/

theorem str_save {F : W → Prop} (t1 t2 : Reg) (b1 b2 : Bool) (s : State) (h2 : t2 ≠ .rsp)
    (hF : Covers F (s.regs .rsp - BitVec.ofNat 64 (nsave b1 b2)) (nsave b1 b2)) :
    ∃ s1, Str F (saveCode t1 t2 b1 b2) s s1 ∧ AfterSave t1 t2 b1 b2 s s1 := by
  have key : ∃ s1, Str F (saveCode t1 t2 b1 b2) s s1 := by
    cases b1 <;> cases b2
    · exact ⟨s, .nil⟩
    · exact ⟨_, .cons (writes_one rfl (by simpa [nsave] using hF)) rfl .nil⟩
    · exact ⟨_, .cons (writes_one rfl (by simpa [nsave] using hF)) rfl .nil⟩
    · refine ⟨_, .cons (writes_one rfl (hF.sub (slot1_sub _ true))) rfl
        (.cons (writes_one rfl ?_) rfl .nil)⟩
      have e : (s.pushW (s.regs t1)).regs .rsp - 8 =
          s.regs .rsp - BitVec.ofNat 64 (nsave true true) := by
        simp only [State.pushW, State.set, if_true, nsave]
        rw [show 8 * (true.toNat + true.toNat) = 16 from rfl]; bv_omega
      rw [e]
      exact hF.sub (slot2_sub _ true)
  obtain ⟨s1, h⟩ := key
  refine ⟨s1, h, ?_⟩
  obtain ⟨s1', ha, he⟩ := ends_save [] [] t1 t2 b1 b2 s h2
  obtain ⟨n, hn⟩ := he _ (ends_nil [] s1')
  obtain ⟨m, hm⟩ := h.ends
  have := run_det hn hm
  injection this with this
  subst this; exact ha

theorem str_restore {F : W → Prop} (t1 t2 : Reg) (b1 b2 : Bool) (s : State) :
    ∃ s1, Str F (restoreCode t1 t2 b1 b2) s s1 := by
  cases b1 <;> cases b2
  · exact ⟨s, .nil⟩
  · exact ⟨_, .cons (writes_none rfl) rfl .nil⟩
  · exact ⟨_, .cons (writes_none rfl) rfl .nil⟩
  · exact ⟨_, .cons (writes_none rfl) rfl (.cons (writes_none rfl) rfl .nil)⟩

theorem str_saveRa {F : W → Prop} (sp ra : Reg) (t : Temps) (s : State)
    (hg : Covers F s.gs 8)
    (hslot : Covers F (s.mem.read64 s.gs) 8) : ∃ s1, Str F (saveRa sp ra t) s s1 := by
  refine ⟨_, .cons (writes_none rfl) rfl (.cons (writes_none rfl) rfl
    (.cons (writes_one rfl ?_) rfl (.cons (writes_none rfl) rfl
      (.cons (writes_one rfl ?_) rfl .nil))))⟩
  · simpa [State.gsa, State.set, State.ea] using hslot
  · simpa [State.gsa, State.set, State.ea] using hg

/-! ## The loop of the check -/

theorem path_iter {F : W → Prop} (w k' : Code) (sp ra : Reg) (off : Int) (s : State)
    (h12 : sp ≠ ra) (hg : Covers F s.gs 8) :
    Path F w ([.lea sp sp (-8), .load ra sp 0, .storeGs 0 sp, .cmpMem ra .rsp off] ++ k') s
      k' (iter sp ra off s) := by
  refine .step (writes_none rfl) (.next (s' := s.set sp (s.regs sp - 8)) ?_) ?_
  · simp [exec, State.ea, sub_eq_add_neg8]
  refine .step (writes_none rfl)
    (.next (s' := (s.set sp (s.regs sp - 8)).set ra (s.mem.read64 (s.regs sp - 8))) ?_) ?_
  · simp [exec, State.ea, State.set]
  refine .step (writes_one rfl ?_)
    (.next (s' := { (s.set sp (s.regs sp - 8)).set ra (s.mem.read64 (s.regs sp - 8)) with
      mem := s.mem.write64 s.gs (s.regs sp - 8) }) ?_) ?_
  · simpa [State.gsa, State.set] using hg
  · simp [exec, State.gsa, State.set, h12]
  refine .step (writes_none rfl) (.next (s' := iter sp ra off s) ?_) .refl
  · simp [exec, iter, State.set]

/-- From the loop head to the second conditional jump, on a mismatch. -/
theorem path_mismatch {F : W → Prop} {w : Code} {sp ra : Reg} {off : Int} {k : Code} {g R ret q : W}
    {e : Nat → W} {n : Nat} {s : State} (h12 : sp ≠ ra) (h1 : sp ≠ .rsp) (h2 : ra ≠ .rsp)
    (h : LoopHyp sp ra off g R ret q e n s) (hF : Covers F g 8) (hne : e 0 ≠ ret) :
    Path F w (loopCode sp ra off k) s
      (.je .error :: .jmp .loop :: .bind .error :: .illegal :: .bind .done :: k)
      { iter sp ra off s with flags := cmpFlags ((e 0).setWidth 32) (BitVec.ofInt 32 0) } := by
  refine (path_iter w _ sp ra off s h12 (by rw [h.gs]; exact hF)).trans ?_
  refine .step (writes_none rfl) (.next (s' := iter sp ra off s) ?_) ?_
  · simp [exec, iter_zf h1 h2 h, hne]
  refine .step (writes_none rfl) (.next ?_) .refl
  · simp only [exec, iter_read32 h12 h]

theorem path_loop {F : W → Prop} {w : Code} {sp ra : Reg} {off : Int} {k : Code} {g R ret : W}
    (hw : HasLoop w sp ra off k) (h12 : sp ≠ ra) (h1 : sp ≠ .rsp) (h2 : ra ≠ .rsp) (n : Nat) :
    ∀ (q : W) (e : Nat → W) (s : State), LoopHyp sp ra off g R ret q e n s → Covers F g 8 →
      (∀ i, i < n → e i ≠ ret ∧ (e i).setWidth 32 ≠ 0#32) →
      (e n = ret → ∃ s', LoopPost sp ra s s' ∧ Path F w (loopCode sp ra off k) s k s') ∧
      (e n ≠ ret → (e n).setWidth 32 = 0#32 →
        ∃ k' s', Path F w (loopCode sp ra off k) s (.illegal :: k') s') := by
  induction n with
  | zero =>
    intro q e s h hF _
    refine ⟨fun he => ⟨iter sp ra off s, .iter .., ?_⟩, fun he hlow => ?_⟩
    · refine (path_iter w _ sp ra off s h12 (by rw [h.gs]; exact hF)).trans ?_
      refine .step (writes_none rfl) (.goto (l := .done) (s' := iter sp ra off s) ?_ hw.done) .refl
      simp [exec, iter_zf h1 h2 h, he]
    · refine ⟨_, { iter sp ra off s with
          flags := cmpFlags ((e 0).setWidth 32) (BitVec.ofInt 32 0) },
        (path_mismatch h12 h1 h2 h hF he).trans
          (.step (writes_none rfl) (.goto (l := .error) ?_ hw.error) .refl)⟩
      simp only [exec, State.zf, cmpFlags_zf]
      rw [if_pos]
      simpa using hlow
  | succ n ih =>
    intro q e s h hF hlt
    have hc : Path F w (loopCode sp ra off k) s (loopCode sp ra off k)
        { iter sp ra off s with flags := cmpFlags ((e 0).setWidth 32) (BitVec.ofInt 32 0) } := by
      refine (path_mismatch h12 h1 h2 h hF (hlt 0 (by omega)).1).trans
        (.step (writes_none rfl) (.next ?_) (.step (writes_none rfl) (.goto rfl hw.loop) .refl))
      simp only [exec, State.zf, cmpFlags_zf]
      rw [if_neg]
      simpa using (hlt 0 (by omega)).2
    obtain ⟨ha, hr⟩ := ih (q - 8) (fun i => e (i + 1)) _
      ((h.iter h12 h1 h2).setFlags _) hF (fun i hi => hlt (i + 1) (by omega))
    refine ⟨fun he => ?_, fun he hlow => ?_⟩
    · obtain ⟨s', hp, hs⟩ := ha he
      exact ⟨s', (LoopPost.iter sp ra off s).setFlags _ |>.trans hp, hc.trans hs⟩
    · obtain ⟨k', s', hs⟩ := hr he hlow
      exact ⟨k', s', hc.trans hs⟩

/-! ## Whole snippets -/

theorem within_push {F : W → Prop} {c1 : Code} {t : Temps} {off0 : Int} {t1 t2 : Reg} {b1 b2 : Bool}
    (h : Shape c1 t off0 t1 t2 b1 b2) (s : State)
    (hsep : PushSep (s.regs .rsp + BitVec.ofInt 64 off0) (nsave b1 b2) s)
    (hg : Covers F s.gs 8) (hslot : Covers F s.shadow 8)
    (hs : Covers F (s.regs .rsp - BitVec.ofNat 64 (nsave b1 b2)) (nsave b1 b2)) (w : Code) :
    Within F w (c1 ++ saveRa t1 t2 t ++ restoreCode t1 t2 b1 b2) s := by
  obtain ⟨s1, p1, a1⟩ := str_save t1 t2 b1 b2 s h.rsp2 hs
  have hsh : s1.mem.read64 s1.gs = s.shadow := by
    rw [a1.gs]; exact read64_of_sep a1.mem hsep.gs_save
  obtain ⟨s2, p2⟩ := str_saveRa (F := F) t1 t2 t s1
    (by rw [a1.gs]; exact hg) (by rw [hsh]; exact hslot)
  obtain ⟨s3, p3⟩ := str_restore (F := F) t1 t2 b1 b2 s2
  refine .exits s3 ?_
  rw [h.code, List.append_assoc]
  refine (p1.path w _).trans ((p2.path w _).trans ?_)
  have := p3.path w []
  rwa [List.append_nil] at this

theorem path_check {F : W → Prop} {pre c1 post : Code} {t : Temps} {off0 : Int} {t1 t2 : Reg}
    {b1 b2 : Bool} (hpre : ∀ l i, i ∈ pre → i.binds l = false)
    (h : Shape c1 t off0 t1 t2 b1 b2) (s : State) (n : Nat)
    (hsep : CheckSep (s.regs .rsp + BitVec.ofInt 64 off0) (nsave b1 b2) (n + 1) s)
    (hg : Covers F s.gs 8)
    (hs : Covers F (s.regs .rsp - BitVec.ofNat 64 (nsave b1 b2)) (nsave b1 b2))
    (hlt : ∀ i, i < n → s.entry i ≠ s.mem.read64 (s.regs .rsp + BitVec.ofInt 64 off0) ∧
      ¬ GuardLike (s.entry i))
    (hn : s.entry n = s.mem.read64 (s.regs .rsp + BitVec.ofInt 64 off0) ∨ GuardLike (s.entry n)) :
    let w := pre ++ c1 ++ validateRa t1 t2 t ++ restoreCode t1 t2 b1 b2 ++ post
    let k := c1 ++ validateRa t1 t2 t ++ restoreCode t1 t2 b1 b2 ++ post
    (∃ s', Path F w k s post s' ∧ s'.gs = s.gs) ∨ ∃ k' s', Path F w k s (.illegal :: k') s' := by
  intro w k
  have hloop : HasLoop w t1 t2 t.spOffset (restoreCode t1 t2 b1 b2 ++ post) := by
    have := hasLoop (pre := pre ++ c1) (post := restoreCode t1 t2 b1 b2 ++ post) (sp := t1)
      (ra := t2) (t := t) (by
        intro l i hi
        rcases List.mem_append.1 hi with hi | hi
        · exact hpre l i hi
        · rw [h.code] at hi; exact saveCode_binds _ _ _ _ l i hi)
    simpa [w, List.append_assoc] using this
  obtain ⟨s1, p1, a1⟩ := str_save t1 t2 b1 b2 s h.rsp2 hs
  obtain ⟨v1, v2, v3⟩ := a1.view hsep
  have p1' := p1.path w (validateRa t1 t2 t ++ (restoreCode t1 t2 b1 b2 ++ post))
  have hR1 : s1.regs .rsp + BitVec.ofInt 64 t.spOffset = s.regs .rsp + BitVec.ofInt 64 off0 := by
    rw [a1.rsp, h.off, ret_addr]
  have hyp : LoopHyp t1 t2 t.spOffset s1.gs (s.regs .rsp + BitVec.ofInt 64 off0)
      (s1.mem.read64 (s.regs .rsp + BitVec.ofInt 64 off0)) s1.shadow s1.entry n
      (s1.set t1 s1.shadow) :=
    { gs := rfl
      sp := by simp [State.set]
      slot := by simpa [State.set, h.rsp1.symm] using hR1
      ret := rfl
      ent := fun _ _ => rfl
      sepR := by rw [a1.gs]; exact hsep.ret_gs
      sepE := by intro i hi; rw [v1, a1.gs]; exact hsep.ent_gs i (by omega) }
  have hF : Covers F s1.gs 8 := by rw [a1.gs]; exact hg
  obtain ⟨ha, hr⟩ := path_loop hloop h.ne h.rsp1 h.rsp2 n _ _ _ hyp hF (by
    intro i hi; rw [v2, v3 i (by omega)]; exact hlt i hi)
  have p2 : Path F w (validateRa t1 t2 t ++ (restoreCode t1 t2 b1 b2 ++ post)) s1
      (loopCode t1 t2 t.spOffset (restoreCode t1 t2 b1 b2 ++ post)) (s1.set t1 s1.shadow) := by
    refine .step (writes_none rfl) (.next (s' := s1.set t1 s1.shadow) ?_)
      (.step (writes_none rfl) (.next rfl) .refl)
    · simp [exec, State.gsa, State.shadow]
  have hk : k = saveCode t1 t2 b1 b2 ++ (validateRa t1 t2 t ++
      (restoreCode t1 t2 b1 b2 ++ post)) := by
    simp only [k, h.code, List.append_assoc]
  rw [hk]
  by_cases hcase : s.entry n = s.mem.read64 (s.regs .rsp + BitVec.ofInt 64 off0)
  · obtain ⟨s2, hp, p3⟩ := ha (by rw [v2, v3 n (by omega)]; exact hcase)
    obtain ⟨s3, p4⟩ := str_restore (F := F) t1 t2 b1 b2 s2
    have hgs : s3.gs = s2.gs := by
      obtain ⟨s3', hr, he⟩ := ends_restore [] [] t1 t2 b1 b2 s2 h.rsp1 h.rsp2 h.ne
      obtain ⟨n, hn⟩ := he _ (ends_nil [] s3')
      obtain ⟨m, hm⟩ := p4.ends
      have := run_det hn hm
      injection this with this
      subst this
      exact hr.gs
    exact Or.inl ⟨s3, p1'.trans (p2.trans (p3.trans (p4.path w post))),
      hgs.trans (hp.gs.trans a1.gs)⟩
  · rcases hn with hn | hn
    · exact absurd hn hcase
    obtain ⟨k', s', p3⟩ := hr (by rw [v2, v3 n (by omega)]; exact hcase)
      (by rw [v3 n (by omega)]; exact hn)
    exact Or.inr ⟨k', s', p1'.trans (p2.trans p3)⟩

/-! ## What the emitted snippets write -/

/-- Bytes which a snippet may write: the thread's region and the `n` bytes below the stack pointer. -/
def Foot (g sp : W) (n : Nat) (x : W) : Prop := InRange x g regionSize ∨ InRange x (sp - BitVec.ofNat 64 n) n

theorem foot_region {g sp : W} {n a m : Nat} (h : a + m ≤ regionSize) :
    Covers (Foot g sp n) (g + BitVec.ofNat 64 a) m := by
  intro x hx
  have hr : regionSize = 8388608 := rfl
  exact Or.inl (inRange_sub hx (by rw [off_toNat (by omega)]; exact h))

theorem foot_gs {g sp : W} {n : Nat} : Covers (Foot g sp n) g 8 := by
  have := foot_region (g := g) (sp := sp) (n := n) (a := 0) (m := 8) (by decide)
  rwa [gs_zero] at this

theorem foot_save {g sp : W} {n : Nat} : Covers (Foot g sp n) (sp - BitVec.ofNat 64 n) n :=
  fun _ hx => Or.inr hx

/-- A push. -/
theorem push_within {code : Code} {d : Int} {n : Nat} {free : Reg → Prop}
    (hc : IsPush code d n free) {g : W} {l : List W} {s : State} (h : Recorded g l s)
    (ha : Apart g (s.regs .rsp + BitVec.ofInt 64 d) n s)
    (hroom : 32 + 8 * l.length + 8 ≤ regionSize) : Within (Foot g (s.regs .rsp) n) code code s := by
  obtain ⟨fl, sm, uo, ht, uf, bs, ts, mid, hf, hm, hok, hcode, rfl, rfl, rfl⟩ := hc
  obtain ⟨c1, t, t1, t2, b1, b2, he, hs, hn, _⟩ := (chosen_push hok ht).out
  have : code = c1 ++ saveRa t1 t2 t ++ restoreCode t1 t2 b1 b2 := by
    simp [jitStackPush, hf.notEmpty, hm, stackPushWith, he, body, hs.tmp1, hs.tmp2, hf.notSave,
      hf.noFrame, hs.restore] at hcode
    rw [← hcode]; simp
  rw [← hn] at ha ⊢
  conv => arg 3; rw [this]
  refine within_push hs s (h.pushSep ha hroom) (by rw [h.gs]; exact foot_gs) ?_ foot_save _
  rw [h.pointer]; exact foot_region hroom

/-- A check. -/
theorem check_within {code : Code} {d : Int} {n : Nat} {free : Reg → Prop}
    (hc : IsCheck code d n free) {g : W} {l : List W} {s : State} (h : Recorded g l s)
    (ha : Apart g (s.regs .rsp + BitVec.ofInt 64 d) n s) : Within (Foot g (s.regs .rsp) n) code code s := by
  obtain ⟨fl, sm, uo, bs, addr, mid, hf, hm, hok, hcode, rfl, rfl, rfl⟩ := hc
  obtain ⟨c1, t, t1, t2, b1, b2, he, hs, hn, _⟩ := (chosen_pop hok).out
  have ecode : code = [] ++ c1 ++ validateRa t1 t2 t ++ restoreCode t1 t2 b1 b2 ++ [] := by
    simp [jitStackPop, hf.notEmpty, hm, stackPopWith, he, body, hs.tmp1, hs.tmp2, hf.notSave,
      hf.noFrame, hs.restore] at hcode
    rw [← hcode]; simp
  rw [← hn] at ha ⊢
  obtain ⟨k, hk, hlt, hend⟩ := first_hit h.holds (s.regs .rsp + BitVec.ofInt 64 (popDisp mid))
  have := path_check (F := Foot g (s.regs .rsp) (nsave b1 b2)) (pre := []) (post := []) (by simp) hs s k
    ((h.checkSep ha).mono (by omega)) (by rw [h.gs]; exact foot_gs) foot_save hlt hend
  subst ecode
  rcases this with ⟨s', hp, _⟩ | ⟨k', s', hp⟩
  · exact .exits s' (by simpa using hp)
  · exact .traps k' s' (by simpa using hp)

/-- A register push. -/
theorem regPush_within {code : Code} {reg : Reg} {d : Int} (hc : IsRegPush code reg d) {g : W}
    {s : State} (h : s.gs = g) {n : Nat} : Within (Foot g (s.regs .rsp) n) code code s := by
  obtain ⟨fl, sm, hf, hr, hcode⟩ := hc
  have : code = [.storeGs 8 reg, .load reg .rsp d] := by
    simp [jitRegisterPush, hf.notEmpty, hf.notSave, hr.get] at hcode
    exact hcode.symm
  subst this
  refine .exits _ (.step (writes_one rfl ?_) (.next rfl) (.step (writes_none rfl) (.next rfl) .refl))
  simp only [State.gsa, h]; exact foot_region (by decide)

/-- The way of a check of the frame register which finds the return address there. -/
theorem regPop_equal_path {code : Code} {reg : Reg} (hc : IsRegPop code reg) {s : State}
    (heq : s.mem.read64 (s.regs .rsp) = s.regs reg) : ∃ k1 s1 s2, code = .cmpMem reg .rsp 0 :: .je .success :: k1 ∧
      exec (.cmpMem reg .rsp 0) s = .next s1 ∧ s1.gs = s.gs ∧ exec (.je .success) s1 = .goto .success s1 ∧
      target .success code = some [.loadGs reg 8] ∧
      exec (.loadGs reg 8) s1 = .next s2 := by
  obtain ⟨fl, sm, hf, hr, hcode⟩ := hc
  obtain ⟨t1, t2, t, c1, he, hs, _, _⟩ := regPop_emitted hf hr
  rw [he] at hcode
  obtain rfl := Option.some.inj hcode
  have ht : target .success (regPopCode reg t1 t2 t c1) = some [.loadGs reg 8] := by
    unfold regPopCode
    rw [target_append]
    · rfl
    · intro i hi
      simp only [List.mem_append] at hi
      rcases hi with ((hi | hi) | hi) | hi
      · simp at hi; rcases hi with rfl | rfl <;> rfl
      · rw [hs.code] at hi; exact saveCode_binds _ _ _ _ _ i hi
      · simp [validateRa] at hi
        rcases hi with rfl | rfl | rfl | rfl | rfl | rfl | rfl | rfl | rfl | rfl | rfl | rfl | rfl <;>
          rfl
      · simp [restoreCode] at hi; rcases hi with rfl | rfl <;> rfl
  refine ⟨c1 ++ (validateRa t1 t2 t ++ (restoreCode t1 t2 true true ++ [.bind .success, .loadGs reg 8])),
    cmpState reg s, _, by simp [regPopCode], cmpState_exec reg s, rfl, ?_, ht, loadGs_exec reg _⟩
  simp [exec, cmpState_zf, heq]

/-- It writes nothing. -/
theorem regPop_within {code : Code} {reg : Reg} (hc : IsRegPop code reg) {s : State} {F : W → Prop}
    (heq : s.mem.read64 (s.regs .rsp) = s.regs reg) : Within F code code s := by
  obtain ⟨k1, s1, s2, e, h1, _, h2, h3, h4⟩ := regPop_equal_path hc heq
  refine .exits s2 ?_
  conv => arg 3; rw [e]
  exact .step (writes_none rfl) (.next h1) (.step (writes_none rfl) (.goto h2 h3)
    (.step (writes_none rfl) (.next h4) .refl))

/-- It looks at the return address and at the saved copy. -/
theorem regPop_looks {code : Code} {reg : Reg} (hc : IsRegPop code reg) {g : W} {s : State} (hg : s.gs = g)
    (heq : s.mem.read64 (s.regs .rsp) = s.regs reg) {n : Nat} :
    Verif.Within (SnipFoot g (s.regs .rsp) (s.regs .rsp) n) code code s := by
  obtain ⟨k1, s1, s2, e, h1, h0, h2, h3, h4⟩ := regPop_equal_path hc heq
  refine .exits s2 ?_
  conv => arg 3; rw [e]
  refine .step (touches_one rfl ?_) (.next h1) (.step (touches_none rfl) (.goto h2 h3)
    (.step (touches_one rfl ?_) (.next h4) .refl))
  · have e0 : s.ea .rsp 0 = s.regs .rsp := by simp [State.ea]
    rw [e0]; exact snipFoot_ret
  · simp only [State.gsa, h0, hg]; exact snipFoot_region (by decide)

/-! ## What the snippet leaves alone -/

/-- An instruction changes nothing but what it writes. -/
theorem exec_keeps {F : W → Prop} {i : Instr} {s s' : State} (hw : Writes F i s)
    (h : exec i s = .next s' ∨ ∃ l, exec i s = .goto l s') {x : W} (hx : ¬ F x) : s'.mem x = s.mem x := by
  have hne : ∀ p, p ∈ stores i s → ¬ InRange x p.1 p.2 := fun p hp hin => hx (hw p hp x hin)
  cases i <;> simp only [exec, stores, List.mem_singleton, forall_eq] at h hne <;>
    (try split at h) <;> simp at h <;>
    first
    | (subst h; rfl)
    | (subst h; exact write64_outRange _ _ _ _ hne)
    | (obtain ⟨_, rfl⟩ := h; rfl)

theorem writes_regs {F : W → Prop} {i : Instr} {s s' : State} (hr : s'.regs = s.regs)
    (hg : s'.gs = s.gs) (h : Writes F i s) : Writes F i s' := by
  have : stores i s' = stores i s := by
    cases i <;> simp only [stores, State.ea, State.gsa, hr, hg]
  rw [Writes, this]; exact h

theorem go_keeps {F : W → Prop} {w k k' : Code} {i : Instr} {s s' : State} (hw : Writes F i s)
    (h : Go w (i :: k) s k' s') {x : W} (hx : ¬ F x) : s'.mem x = s.mem x := by
  cases h with
  | next e => exact exec_keeps hw (.inl e) hx
  | goto e _ => exact exec_keeps hw (.inr ⟨_, e⟩) hx

end Verif.Wr
