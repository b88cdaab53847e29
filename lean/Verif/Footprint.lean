import Verif.Emitted

/-!
# Which memory a running snippet touches

`accesses i s` lists the bytes which instruction `i` reads or writes in state `s`.
`Path F w k s k' s'`: the snippet `w`, being about to execute the suffix `k` in state `s`,
gets to the suffix `k'` in state `s'`, and every instruction on the way touches only
bytes in `F`.
-/

namespace Verif

/-- The bytes an instruction reads or writes, as ranges (address, length). -/
def accesses : Instr → State → List (W × Nat)
  | .push _, s => [(s.regs .rsp - 8, 8)]
  | .pop _, s => [(s.regs .rsp, 8)]
  | .pushfq, s => [(s.regs .rsp - 8, 8)]
  | .popfq, s => [(s.regs .rsp, 8)]
  | .load _ b d, s => [(s.ea b d, 8)]
  | .store b d _, s => [(s.ea b d, 8)]
  | .loadGs _ d, s => [(s.gsa d, 8)]
  | .storeGs d _, s => [(s.gsa d, 8)]
  | .lea .., _ => []
  | .addGs d _, s => [(s.gsa d, 8)]
  | .subGs d _, s => [(s.gsa d, 8)]
  | .subImm .., _ => []
  | .cmpMem _ b d, s => [(s.ea b d, 8)]
  | .cmpDword b _, s => [(s.regs b, 4)]
  | .je _, _ => []
  | .jne _, _ => []
  | .jmp _, _ => []
  | .bind _, _ => []
  | .illegal, _ => []

/-- The instruction touches only bytes in `F`. -/
def Touches (F : W → Prop) (i : Instr) (s : State) : Prop :=
  ∀ p, p ∈ accesses i s → ∀ x, InRange x p.1 p.2 → F x

/-- `F` contains the bytes `[a, a+n)`. -/
def Covers (F : W → Prop) (a : W) (n : Nat) : Prop := ∀ x, InRange x a n → F x

theorem Covers.sub {F : W → Prop} {a a' : W} {n n' : Nat} (h : Covers F a n)
    (hs : (a' - a).toNat + n' ≤ n) : Covers F a' n' := fun _ hx => h _ (inRange_sub hx hs)

theorem touches_one {F : W → Prop} {i : Instr} {s : State} {a : W} {n : Nat}
    (e : accesses i s = [(a, n)]) (h : Covers F a n) : Touches F i s := by
  intro p hp
  rw [e, List.mem_singleton] at hp
  subst hp; exact h

theorem touches_none {F : W → Prop} {i : Instr} {s : State} (e : accesses i s = []) :
    Touches F i s := by
  intro p hp
  rw [e] at hp
  simp at hp

/-- One instruction of snippet `w`. -/
inductive Go (w : Code) : Code → State → Code → State → Prop
  | next {i k s s'} : exec i s = .next s' → Go w (i :: k) s k s'
  | goto {i k s s' l k'} : exec i s = .goto l s' → target l w = some k' → Go w (i :: k) s k' s'

/-- An execution in which the instructions touch only the bytes `F`. -/
inductive Path (F : W → Prop) (w : Code) : Code → State → Code → State → Prop
  | refl {k s} : Path F w k s k s
  | step {i k s k1 s1 k2 s2} : Touches F i s → Go w (i :: k) s k1 s1 →
      Path F w k1 s1 k2 s2 → Path F w (i :: k) s k2 s2

theorem Go.det {w k k1 k2 : Code} {s s1 s2 : State} (h1 : Go w k s k1 s1) (h2 : Go w k s k2 s2) :
    k1 = k2 ∧ s1 = s2 := by
  cases h1 with
  | next e1 =>
    cases h2 with
    | next e2 => rw [e1] at e2; injection e2 with e2; exact ⟨rfl, e2⟩
    | goto e2 _ => rw [e1] at e2; injection e2
  | goto e1 t1 =>
    cases h2 with
    | next e2 => rw [e1] at e2; injection e2
    | goto e2 t2 =>
      rw [e1] at e2; injection e2 with e2 e3
      subst e2
      rw [t1] at t2
      exact ⟨Option.some.inj t2, e3⟩

theorem Go.ends {w k k1 : Code} {s s1 : State} {o : Outcome} (h : Go w k s k1 s1)
    (he : Ends w k1 s1 o) : Ends w k s o := by
  cases h with
  | next e => exact ends_next e he
  | goto e t => exact ends_goto e t he

theorem Path.ends {F : W → Prop} {w k k1 : Code} {s s1 : State} {o : Outcome}
    (h : Path F w k s k1 s1) (he : Ends w k1 s1 o) : Ends w k s o := by
  induction h with
  | refl => exact he
  | step _ hg _ ih => exact hg.ends (ih he)

theorem Path.trans {F : W → Prop} {w k k1 k2 : Code} {s s1 s2 : State} (h : Path F w k s k1 s1)
    (h' : Path F w k1 s1 k2 s2) : Path F w k s k2 s2 := by
  induction h with
  | refl => exact h'
  | step a b _ ih => exact .step a b (ih h')

/-- Straight-line code. -/
inductive Str (F : W → Prop) : Code → State → State → Prop
  | nil {s} : Str F [] s s
  | cons {i k s s1 s2} : Touches F i s → exec i s = .next s1 → Str F k s1 s2 → Str F (i :: k) s s2

theorem Str.path {F : W → Prop} {c : Code} {s s' : State} (h : Str F c s s') (w k : Code) :
    Path F w (c ++ k) s k s' := by
  induction h with
  | nil => exact .refl
  | cons a b _ ih => exact .step a (.next b) ih

theorem Str.ends {F : W → Prop} {c : Code} {s s' : State} (h : Str F c s s') :
    Ends [] (c ++ []) s (.exit s') := (h.path [] []).ends (ends_nil _ _)

/-- A snippet whose every instruction touches only `F`, and which comes to an end. -/
inductive Within (F : W → Prop) (w : Code) (k : Code) (s : State) : Prop
  | exits (s') : Path F w k s [] s' → Within F w k s
  | traps (k' s') : Path F w k s (.illegal :: k') s' → Within F w k s

/-- Everything which is reached is on the way to the end. -/
theorem Path.reach {F : W → Prop} {w k k1 k2 : Code} {s s1 s2 : State} (h : Path F w k s k2 s2)
    (hend : ∀ k' s', ¬ Go w k2 s2 k' s') (hg : Go w k s k1 s1) : Path F w k1 s1 k2 s2 := by
  cases h with
  | refl => exact absurd hg (hend _ _)
  | step _ hg' h' =>
    obtain ⟨rfl, rfl⟩ := hg.det hg'
    exact h'

theorem go_nil {w : Code} {s : State} : ∀ k' s', ¬ Go w [] s k' s' := fun _ _ h => by cases h

theorem go_illegal {w k : Code} {s : State} : ∀ k' s', ¬ Go w (.illegal :: k) s k' s' := by
  intro k' s' h
  cases h with
  | next e => simp [exec] at e
  | goto e _ => simp [exec] at e

theorem Within.go {F : W → Prop} {w k k1 : Code} {s s1 : State} (h : Within F w k s)
    (hg : Go w k s k1 s1) : Within F w k1 s1 := by
  cases h with
  | exits s' hp => exact .exits s' (hp.reach go_nil hg)
  | traps k' s' hp => exact .traps k' s' (hp.reach go_illegal hg)

theorem Within.touches {F : W → Prop} {w k : Code} {i : Instr} {s : State}
    (h : Within F w (i :: k) s) : Touches F i s := by
  cases h with
  | exits s' hp => cases hp with | step a _ _ => exact a
  | traps k' s' hp =>
    cases hp with
    | refl => exact touches_none rfl
    | step a _ _ => exact a

/-! ## Running with other memory outside the footprint -/

/-- Same registers, flags and gs base, and the same memory in `F`. -/
structure AgreeOn (F : W → Prop) (s s' : State) : Prop where
  regs : s'.regs = s.regs
  flags : s'.flags = s.flags
  gs : s'.gs = s.gs
  mem : ∀ x, F x → s'.mem x = s.mem x

theorem read32_eq (m m' : Mem) (a : W) (h : ∀ x, InRange x a 4 → m x = m' x) :
    m.read32 a = m'.read32 a := by
  have hh : ∀ k : Nat, k < 4 → InRange (a + BitVec.ofNat 64 k) a 4 :=
    fun k hk => inRange_add hk (by omega)
  unfold Mem.read32
  rw [h (a + 3) (hh 3 (by omega)), h (a + 2) (hh 2 (by omega)),
    h (a + 1) (hh 1 (by omega)), h a (inRange_self (by omega))]

/-- Results of an instruction in two states. -/
def StepAgree (F : W → Prop) (s' : State) : Step → Step → Prop
  | .next a, .next a' => AgreeOn F a a' ∧ ∀ x, ¬ F x → a'.mem x = s'.mem x
  | .goto l a, .goto l' a' => l' = l ∧ AgreeOn F a a' ∧ ∀ x, ¬ F x → a'.mem x = s'.mem x
  | .trap a, .trap a' => AgreeOn F a a' ∧ ∀ x, ¬ F x → a'.mem x = s'.mem x
  | _, _ => False

theorem agree_read {F : W → Prop} {s s' : State} (h : AgreeOn F s s') {a : W}
    (hc : Covers F a 8) : s'.mem.read64 a = s.mem.read64 a :=
  read64_eq _ _ _ fun x hx => h.mem x (hc x hx)

theorem agree_write {F : W → Prop} {m m' : Mem} (h : ∀ x, F x → m' x = m x) {a v : W}
    (hc : Covers F a 8) : (∀ x, F x → m'.write64 a v x = m.write64 a v x) ∧
      ∀ x, ¬ F x → m'.write64 a v x = m' x := by
  constructor
  · intro x hx
    simp only [Mem.write64]
    split
    · rfl
    · exact h x hx
  · intro x hx
    refine write64_outRange _ _ _ _ fun hr => hx (hc x hr)

/-- An instruction which touches only `F` does the same in both states and changes
nothing outside. -/
theorem exec_agree {F : W → Prop} {s s' : State} (h : AgreeOn F s s') {i : Instr}
    (ht : Touches F i s) : StepAgree F s' (exec i s) (exec i s') := by
  obtain ⟨regs', flags', gs', mem'⟩ := s'
  obtain ⟨regs, flags, gs, mem⟩ := s
  obtain ⟨h1, h2, h3, h4⟩ := h
  simp only at h1 h2 h3 h4
  subst h1 h2 h3
  have hmem : AgreeOn F ⟨regs', flags', gs', mem⟩ ⟨regs', flags', gs', mem'⟩ := ⟨rfl, rfl, rfl, h4⟩
  cases i with
  | push r =>
    have hw := agree_write h4 (v := regs' r) (ht _ (List.mem_singleton.2 rfl))
    exact ⟨⟨rfl, rfl, rfl, hw.1⟩, hw.2⟩
  | pop r =>
    have := agree_read hmem (ht _ (List.mem_singleton.2 rfl))
    dsimp only at this
    refine ⟨⟨?_, rfl, rfl, h4⟩, fun _ _ => rfl⟩
    simp only [State.set, this]
  | pushfq =>
    have hw := agree_write h4 (v := flags') (ht _ (List.mem_singleton.2 rfl))
    exact ⟨⟨rfl, rfl, rfl, hw.1⟩, hw.2⟩
  | popfq =>
    have := agree_read hmem (ht _ (List.mem_singleton.2 rfl))
    dsimp only at this
    refine ⟨⟨rfl, this, rfl, h4⟩, fun _ _ => rfl⟩
  | load r b d =>
    have := agree_read hmem (ht _ (List.mem_singleton.2 rfl))
    refine ⟨⟨?_, rfl, rfl, h4⟩, fun _ _ => rfl⟩
    simp only [State.set]
    simp only [State.ea] at this ⊢
    rw [this]
  | store b d r =>
    have hw := agree_write h4 (v := regs' r) (ht _ (List.mem_singleton.2 rfl))
    exact ⟨⟨rfl, rfl, rfl, hw.1⟩, hw.2⟩
  | loadGs r d =>
    have := agree_read hmem (ht _ (List.mem_singleton.2 rfl))
    refine ⟨⟨?_, rfl, rfl, h4⟩, fun _ _ => rfl⟩
    simp only [State.set]
    simp only [State.gsa] at this ⊢
    rw [this]
  | storeGs d r =>
    have hw := agree_write h4 (v := regs' r) (ht _ (List.mem_singleton.2 rfl))
    exact ⟨⟨rfl, rfl, rfl, hw.1⟩, hw.2⟩
  | lea r b d => exact ⟨⟨rfl, rfl, rfl, h4⟩, fun _ _ => rfl⟩
  | addGs d i =>
    have hr := agree_read hmem (ht _ (List.mem_singleton.2 rfl))
    have hw := agree_write h4 (v := mem.read64 (gs' + BitVec.ofInt 64 d) + BitVec.ofInt 64 i)
      (ht _ (List.mem_singleton.2 rfl))
    simp only [State.gsa] at hr hw
    refine ⟨⟨rfl, ?_, rfl, ?_⟩, ?_⟩
    · simp only [State.gsa, hr]
    · simp only [State.gsa, hr]; exact hw.1
    · simp only [State.gsa, hr]; exact hw.2
  | subGs d i =>
    have hr := agree_read hmem (ht _ (List.mem_singleton.2 rfl))
    have hw := agree_write h4 (v := mem.read64 (gs' + BitVec.ofInt 64 d) - BitVec.ofInt 64 i)
      (ht _ (List.mem_singleton.2 rfl))
    simp only [State.gsa] at hr hw
    refine ⟨⟨rfl, ?_, rfl, ?_⟩, ?_⟩
    · simp only [State.gsa, hr]
    · simp only [State.gsa, hr]; exact hw.1
    · simp only [State.gsa, hr]; exact hw.2
  | subImm r i => exact ⟨⟨rfl, rfl, rfl, h4⟩, fun _ _ => rfl⟩
  | cmpMem r b d =>
    have hr := agree_read hmem (ht _ (List.mem_singleton.2 rfl))
    simp only [State.ea] at hr
    refine ⟨⟨rfl, ?_, rfl, h4⟩, fun _ _ => rfl⟩
    simp only [State.ea, hr]
  | cmpDword b i =>
    have hr : mem'.read32 (regs' b) = mem.read32 (regs' b) :=
      read32_eq _ _ _ fun x hx => h4 x (ht _ (List.mem_singleton.2 rfl) x hx)
    refine ⟨⟨rfl, ?_, rfl, h4⟩, fun _ _ => rfl⟩
    simp only [hr]
  | je l =>
    by_cases hz : flags'.getLsbD 6 = true
    · simp only [exec, State.zf, hz, if_true]
      exact ⟨rfl, hmem, fun _ _ => rfl⟩
    · simp only [exec, State.zf, hz]
      exact ⟨hmem, fun _ _ => rfl⟩
  | jne l =>
    by_cases hz : flags'.getLsbD 6 = true
    · simp only [exec, State.zf, hz, if_true]
      exact ⟨hmem, fun _ _ => rfl⟩
    · simp only [exec, State.zf, hz]
      exact ⟨rfl, hmem, fun _ _ => rfl⟩
  | jmp l => exact ⟨rfl, hmem, fun _ _ => rfl⟩
  | bind l => exact ⟨hmem, fun _ _ => rfl⟩
  | illegal => exact ⟨hmem, fun _ _ => rfl⟩

/-- The same for a step of a snippet: what happens in the second state also happens in
the first one. -/
theorem Go.agree {F : W → Prop} {w k k1 : Code} {s s' s1' : State} {i : Instr}
    (h : AgreeOn F s s') (ht : Touches F i s) (hg : Go w (i :: k) s' k1 s1') :
    ∃ s1, Go w (i :: k) s k1 s1 ∧ AgreeOn F s1 s1' ∧ ∀ x, ¬ F x → s1'.mem x = s'.mem x := by
  have := exec_agree h ht
  cases hg with
  | next e =>
    rw [e] at this
    cases hx : exec i s with
    | next a => rw [hx] at this; exact ⟨a, .next hx, this.1, this.2⟩
    | goto l a => rw [hx] at this; exact this.elim
    | trap a => rw [hx] at this; exact this.elim
  | goto e t =>
    rw [e] at this
    cases hx : exec i s with
    | next a => rw [hx] at this; exact this.elim
    | goto l a =>
      rw [hx] at this
      obtain ⟨rfl, h1, h2⟩ := this
      exact ⟨a, .goto hx t, h1, h2⟩
    | trap a => rw [hx] at this; exact this.elim

/-! ## The parts of a snippet -/

theorem str_save {F : W → Prop} (t1 t2 : Reg) (b1 b2 : Bool) (s : State) (h2 : t2 ≠ .rsp)
    (hF : Covers F (s.regs .rsp - BitVec.ofNat 64 (nsave b1 b2)) (nsave b1 b2)) :
    ∃ s1, Str F (saveCode t1 t2 b1 b2) s s1 ∧ AfterSave t1 t2 b1 b2 s s1 := by
  have key : ∃ s1, Str F (saveCode t1 t2 b1 b2) s s1 := by
    cases b1 <;> cases b2
    · exact ⟨s, .nil⟩
    · exact ⟨_, .cons (touches_one rfl (by simpa [nsave] using hF)) rfl .nil⟩
    · exact ⟨_, .cons (touches_one rfl (by simpa [nsave] using hF)) rfl .nil⟩
    · refine ⟨_, .cons (touches_one rfl (hF.sub (slot1_sub _ true))) rfl
        (.cons (touches_one rfl ?_) rfl .nil)⟩
      have e : (s.pushW (s.regs t1)).regs .rsp - 8 =
          s.regs .rsp - BitVec.ofNat 64 (nsave true true) := by
        simp only [State.pushW, State.set, if_true, nsave]
        rw [show 8 * (true.toNat + true.toNat) = 16 from rfl]; bv_omega
      rw [e]
      exact hF.sub (slot2_sub _ true)
  obtain ⟨s1, h⟩ := key
  refine ⟨s1, h, ?_⟩
  obtain ⟨s1', ha, he⟩ := ends_save [] [] t1 t2 b1 b2 s h2
  obtain ⟨n, hn⟩ := he _ (ends_nil [] s1')
  obtain ⟨m, hm⟩ := h.ends
  have := run_det hn hm
  injection this with this
  subst this; exact ha

theorem str_restore {F : W → Prop} (t1 t2 : Reg) (b1 b2 : Bool) (s : State)
    (h2 : t2 ≠ .rsp) (hF : Covers F (s.regs .rsp) (nsave b1 b2)) :
    ∃ s1, Str F (restoreCode t1 t2 b1 b2) s s1 := by
  cases b1 <;> cases b2
  · exact ⟨s, .nil⟩
  · exact ⟨_, .cons (touches_one rfl (by simpa [nsave] using hF)) rfl .nil⟩
  · exact ⟨_, .cons (touches_one rfl (by simpa [nsave] using hF)) rfl .nil⟩
  · refine ⟨_, .cons (touches_one rfl (hF.sub ?_)) rfl (.cons (touches_one rfl ?_) rfl .nil)⟩
    · rw [BitVec.sub_self]; decide
    · have e : ((s.set .rsp (s.regs .rsp + 8)).set t2 (s.mem.read64 (s.regs .rsp))).regs .rsp =
          s.regs .rsp + 8 := by simp [State.set, h2.symm]
      rw [e]
      refine hF.sub ?_
      have : s.regs .rsp + 8 - s.regs .rsp = 8#64 := by bv_omega
      rw [this]; decide

theorem str_saveRa {F : W → Prop} (sp ra : Reg) (t : Temps) (s : State)
    (hR : Covers F (s.regs .rsp + BitVec.ofInt 64 t.spOffset) 8) (hg : Covers F s.gs 8)
    (hslot : Covers F (s.mem.read64 s.gs) 8) : ∃ s1, Str F (saveRa sp ra t) s s1 := by
  refine ⟨_, .cons (touches_one rfl hR) rfl (.cons (touches_one rfl ?_) rfl
    (.cons (touches_one rfl ?_) rfl (.cons (touches_none rfl) rfl
      (.cons (touches_one rfl ?_) rfl .nil))))⟩
  · simpa [State.gsa, State.set] using hg
  · simpa [State.gsa, State.set, State.ea] using hslot
  · simpa [State.gsa, State.set, State.ea] using hg

/-! ## The loop of the check -/

theorem path_iter {F : W → Prop} (w k' : Code) (sp ra : Reg) (off : Int) (s : State)
    (h12 : sp ≠ ra) (h1 : sp ≠ .rsp) (h2 : ra ≠ .rsp) (hR : Covers F (s.regs .rsp + BitVec.ofInt 64 off) 8)
    (hg : Covers F s.gs 8) (he : Covers F (s.regs sp - 8) 8) :
    Path F w ([.lea sp sp (-8), .load ra sp 0, .storeGs 0 sp, .cmpMem ra .rsp off] ++ k') s
      k' (iter sp ra off s) := by
  refine .step (touches_none rfl) (.next (s' := s.set sp (s.regs sp - 8)) ?_) ?_
  · simp [exec, State.ea, sub_eq_add_neg8]
  refine .step (touches_one rfl ?_)
    (.next (s' := (s.set sp (s.regs sp - 8)).set ra (s.mem.read64 (s.regs sp - 8))) ?_) ?_
  · simpa [State.ea, State.set] using he
  · simp [exec, State.ea, State.set]
  refine .step (touches_one rfl ?_)
    (.next (s' := { (s.set sp (s.regs sp - 8)).set ra (s.mem.read64 (s.regs sp - 8)) with
      mem := s.mem.write64 s.gs (s.regs sp - 8) }) ?_) ?_
  · simpa [State.gsa, State.set] using hg
  · simp [exec, State.gsa, State.set, h12]
  refine .step (touches_one rfl ?_) (.next (s' := iter sp ra off s) ?_) .refl
  · simpa [State.ea, State.set, h1.symm, h2.symm] using hR
  · simp [exec, iter, State.set]

/-- The footprint of the loop: the return address, the shadow pointer and the entries. -/
structure LoopIn (F : W → Prop) (g R q : W) (n : Nat) : Prop where
  ret : Covers F R 8
  gs : Covers F g 8
  ent : ∀ i, i ≤ n → Covers F (entAddr q i) 8

theorem LoopIn.down {F : W → Prop} {g R q : W} {n : Nat} (h : LoopIn F g R q (n + 1)) :
    LoopIn F g R (q - 8) n :=
  ⟨h.ret, h.gs, fun i hi => by rw [entAddr_succ]; exact h.ent _ (by omega)⟩

theorem iter_read32 {sp ra : Reg} {off : Int} {g R ret q : W} {e : Nat → W} {n : Nat}
    {s : State} (h12 : sp ≠ ra) (h : LoopHyp sp ra off g R ret q e n s) :
    (iter sp ra off s).mem.read32 ((iter sp ra off s).regs sp) = (e 0).setWidth 32 := by
  rw [read32_eq_low]
  simp only [iter, State.set, h12, if_true, if_false]
  rw [read64_write64_sep, h.sp, ← entAddr_zero, h.ent 0 (by omega)]
  rw [h.sp, ← entAddr_zero, h.gs]; exact h.sepE 0 (by omega)

/-- From the loop head to the second conditional jump, on a mismatch. -/
theorem path_mismatch {F : W → Prop} {w : Code} {sp ra : Reg} {off : Int} {k : Code} {g R ret q : W}
    {e : Nat → W} {n : Nat} {s : State} (h12 : sp ≠ ra) (h1 : sp ≠ .rsp) (h2 : ra ≠ .rsp)
    (h : LoopHyp sp ra off g R ret q e n s) (hF : LoopIn F g R q n) (hne : e 0 ≠ ret) :
    Path F w (loopCode sp ra off k) s
      (.je .error :: .jmp .loop :: .bind .error :: .illegal :: .bind .done :: k)
      { iter sp ra off s with flags := cmpFlags ((e 0).setWidth 32) (BitVec.ofInt 32 0) } := by
  refine (path_iter w _ sp ra off s h12 h1 h2 (by rw [h.slot]; exact hF.ret)
    (by rw [h.gs]; exact hF.gs) (by rw [h.sp, ← entAddr_zero]; exact hF.ent 0 (by omega))).trans ?_
  refine .step (touches_none rfl) (.next (s' := iter sp ra off s) ?_) ?_
  · simp [exec, iter_zf h1 h2 h, hne]
  refine .step (touches_one rfl ?_) (.next ?_) .refl
  · have : (iter sp ra off s).regs sp = entAddr q 0 := by
      simp [iter, State.set, h12, h.sp, entAddr_zero]
    rw [this]
    exact (hF.ent 0 (by omega)).sub (by rw [BitVec.sub_self]; decide)
  · simp only [exec, iter_read32 h12 h]

theorem path_loop {F : W → Prop} {w : Code} {sp ra : Reg} {off : Int} {k : Code} {g R ret : W}
    (hw : HasLoop w sp ra off k) (h12 : sp ≠ ra) (h1 : sp ≠ .rsp) (h2 : ra ≠ .rsp) (n : Nat) :
    ∀ (q : W) (e : Nat → W) (s : State), LoopHyp sp ra off g R ret q e n s → LoopIn F g R q n →
      (∀ i, i < n → e i ≠ ret ∧ (e i).setWidth 32 ≠ 0#32) →
      (e n = ret → ∃ s', LoopPost sp ra s s' ∧ Path F w (loopCode sp ra off k) s k s') ∧
      (e n ≠ ret → (e n).setWidth 32 = 0#32 →
        ∃ k' s', Path F w (loopCode sp ra off k) s (.illegal :: k') s') := by
  induction n with
  | zero =>
    intro q e s h hF _
    refine ⟨fun he => ⟨iter sp ra off s, .iter .., ?_⟩, fun he hlow => ?_⟩
    · refine (path_iter w _ sp ra off s h12 h1 h2 (by rw [h.slot]; exact hF.ret)
        (by rw [h.gs]; exact hF.gs)
        (by rw [h.sp, ← entAddr_zero]; exact hF.ent 0 (by omega))).trans ?_
      refine .step (touches_none rfl) (.goto (l := .done) (s' := iter sp ra off s) ?_ hw.done) .refl
      simp [exec, iter_zf h1 h2 h, he]
    · refine ⟨_, { iter sp ra off s with
          flags := cmpFlags ((e 0).setWidth 32) (BitVec.ofInt 32 0) },
        (path_mismatch h12 h1 h2 h hF he).trans
          (.step (touches_none rfl) (.goto (l := .error) ?_ hw.error) .refl)⟩
      simp only [exec, State.zf, cmpFlags_zf]
      rw [if_pos]
      simpa using hlow
  | succ n ih =>
    intro q e s h hF hlt
    have hc : Path F w (loopCode sp ra off k) s (loopCode sp ra off k)
        { iter sp ra off s with flags := cmpFlags ((e 0).setWidth 32) (BitVec.ofInt 32 0) } := by
      refine (path_mismatch h12 h1 h2 h hF (hlt 0 (by omega)).1).trans
        (.step (touches_none rfl) (.next ?_) (.step (touches_none rfl) (.goto rfl hw.loop) .refl))
      simp only [exec, State.zf, cmpFlags_zf]
      rw [if_neg]
      simpa using (hlt 0 (by omega)).2
    obtain ⟨ha, hr⟩ := ih (q - 8) (fun i => e (i + 1)) _
      ((h.iter h12 h1 h2).setFlags _) hF.down (fun i hi => hlt (i + 1) (by omega))
    refine ⟨fun he => ?_, fun he hlow => ?_⟩
    · obtain ⟨s', hp, hs⟩ := ha he
      exact ⟨s', (LoopPost.iter sp ra off s).setFlags _ |>.trans hp, hc.trans hs⟩
    · obtain ⟨k', s', hs⟩ := hr he hlow
      exact ⟨k', s', hc.trans hs⟩

/-! ## Whole snippets -/

theorem within_push {F : W → Prop} {c1 : Code} {t : Temps} {off0 : Int} {t1 t2 : Reg} {b1 b2 : Bool}
    (h : Shape c1 t off0 t1 t2 b1 b2) (s : State)
    (hsep : PushSep (s.regs .rsp + BitVec.ofInt 64 off0) (nsave b1 b2) s)
    (hR : Covers F (s.regs .rsp + BitVec.ofInt 64 off0) 8) (hg : Covers F s.gs 8)
    (hslot : Covers F s.shadow 8)
    (hs : Covers F (s.regs .rsp - BitVec.ofNat 64 (nsave b1 b2)) (nsave b1 b2)) (w : Code) :
    Within F w (c1 ++ saveRa t1 t2 t ++ restoreCode t1 t2 b1 b2) s := by
  obtain ⟨s1, p1, a1⟩ := str_save t1 t2 b1 b2 s h.rsp2 hs
  have hsh : s1.mem.read64 s1.gs = s.shadow := by
    rw [a1.gs]; exact read64_of_sep a1.mem hsep.gs_save
  obtain ⟨s2, p2⟩ := str_saveRa (F := F) t1 t2 t s1
    (by rw [a1.rsp, h.off, ret_addr]; exact hR) (by rw [a1.gs]; exact hg) (by rw [hsh]; exact hslot)
  have hrsp : s2.regs .rsp = s1.regs .rsp := by
    obtain ⟨s2', hr, _, _, _, he⟩ := ends_saveRa [] [] t1 t2 t s1 h.ne
    obtain ⟨n, hn⟩ := he _ (ends_nil [] s2')
    obtain ⟨m, hm⟩ := p2.ends
    have := run_det hn hm
    injection this with this
    subst this
    exact hr _ h.rsp1.symm h.rsp2.symm
  obtain ⟨s3, p3⟩ := str_restore (F := F) t1 t2 b1 b2 s2 h.rsp2
    (by rw [hrsp, a1.rsp]; exact hs)
  refine .exits s3 ?_
  rw [h.code, List.append_assoc]
  refine (p1.path w _).trans ((p2.path w _).trans ?_)
  have := p3.path w []
  rwa [List.append_nil] at this

theorem path_check {F : W → Prop} {pre c1 post : Code} {t : Temps} {off0 : Int} {t1 t2 : Reg}
    {b1 b2 : Bool} (hpre : ∀ l i, i ∈ pre → i.binds l = false)
    (h : Shape c1 t off0 t1 t2 b1 b2) (s : State) (n : Nat)
    (hsep : CheckSep (s.regs .rsp + BitVec.ofInt 64 off0) (nsave b1 b2) (n + 1) s)
    (hR : Covers F (s.regs .rsp + BitVec.ofInt 64 off0) 8) (hg : Covers F s.gs 8)
    (hent : ∀ i, i ≤ n → Covers F (s.shadow - BitVec.ofNat 64 (8 * (i + 1))) 8)
    (hs : Covers F (s.regs .rsp - BitVec.ofNat 64 (nsave b1 b2)) (nsave b1 b2))
    (hlt : ∀ i, i < n → s.entry i ≠ s.mem.read64 (s.regs .rsp + BitVec.ofInt 64 off0) ∧
      ¬ GuardLike (s.entry i))
    (hn : s.entry n = s.mem.read64 (s.regs .rsp + BitVec.ofInt 64 off0) ∨ GuardLike (s.entry n)) :
    let w := pre ++ c1 ++ validateRa t1 t2 t ++ restoreCode t1 t2 b1 b2 ++ post
    let k := c1 ++ validateRa t1 t2 t ++ restoreCode t1 t2 b1 b2 ++ post
    (∃ s', Path F w k s post s' ∧ s'.gs = s.gs) ∨ ∃ k' s', Path F w k s (.illegal :: k') s' := by
  intro w k
  have hloop : HasLoop w t1 t2 t.spOffset (restoreCode t1 t2 b1 b2 ++ post) := by
    have := hasLoop (pre := pre ++ c1) (post := restoreCode t1 t2 b1 b2 ++ post) (sp := t1)
      (ra := t2) (t := t) (by
        intro l i hi
        rcases List.mem_append.1 hi with hi | hi
        · exact hpre l i hi
        · rw [h.code] at hi; exact saveCode_binds _ _ _ _ l i hi)
    simpa [w, List.append_assoc] using this
  obtain ⟨s1, p1, a1⟩ := str_save t1 t2 b1 b2 s h.rsp2 hs
  obtain ⟨v1, v2, v3⟩ := a1.view hsep
  have p1' := p1.path w (validateRa t1 t2 t ++ (restoreCode t1 t2 b1 b2 ++ post))
  have hR1 : s1.regs .rsp + BitVec.ofInt 64 t.spOffset = s.regs .rsp + BitVec.ofInt 64 off0 := by
    rw [a1.rsp, h.off, ret_addr]
  have hyp : LoopHyp t1 t2 t.spOffset s1.gs (s.regs .rsp + BitVec.ofInt 64 off0)
      (s1.mem.read64 (s.regs .rsp + BitVec.ofInt 64 off0)) s1.shadow s1.entry n
      (s1.set t1 s1.shadow) :=
    { gs := rfl
      sp := by simp [State.set]
      slot := by simpa [State.set, h.rsp1.symm] using hR1
      ret := rfl
      ent := fun _ _ => rfl
      sepR := by rw [a1.gs]; exact hsep.ret_gs
      sepE := by intro i hi; rw [v1, a1.gs]; exact hsep.ent_gs i (by omega) }
  have hF : LoopIn F s1.gs (s.regs .rsp + BitVec.ofInt 64 off0) s1.shadow n :=
    ⟨hR, by rw [a1.gs]; exact hg, by intro i hi; rw [v1]; exact hent i hi⟩
  obtain ⟨ha, hr⟩ := path_loop hloop h.ne h.rsp1 h.rsp2 n _ _ _ hyp hF (by
    intro i hi; rw [v2, v3 i (by omega)]; exact hlt i hi)
  have p2 : Path F w (validateRa t1 t2 t ++ (restoreCode t1 t2 b1 b2 ++ post)) s1
      (loopCode t1 t2 t.spOffset (restoreCode t1 t2 b1 b2 ++ post)) (s1.set t1 s1.shadow) := by
    refine .step (touches_one rfl ?_) (.next (s' := s1.set t1 s1.shadow) ?_)
      (.step (touches_none rfl) (.next rfl) .refl)
    · simpa [State.gsa, a1.gs] using hg
    · simp [exec, State.gsa, State.shadow]
  have hk : k = saveCode t1 t2 b1 b2 ++ (validateRa t1 t2 t ++
      (restoreCode t1 t2 b1 b2 ++ post)) := by
    simp only [k, h.code, List.append_assoc]
  rw [hk]
  by_cases hcase : s.entry n = s.mem.read64 (s.regs .rsp + BitVec.ofInt 64 off0)
  · obtain ⟨s2, hp, p3⟩ := ha (by rw [v2, v3 n (by omega)]; exact hcase)
    have hrsp : s2.regs .rsp = s.regs .rsp - BitVec.ofNat 64 (nsave b1 b2) := by
      rw [hp.regs _ h.rsp1.symm h.rsp2.symm]
      simpa [State.set, h.rsp1.symm] using a1.rsp
    obtain ⟨s3, p4⟩ := str_restore (F := F) t1 t2 b1 b2 s2 h.rsp2 (by rw [hrsp]; exact hs)
    have hgs : s3.gs = s2.gs := by
      obtain ⟨s3', hr, he⟩ := ends_restore [] [] t1 t2 b1 b2 s2 h.rsp1 h.rsp2 h.ne
      obtain ⟨n, hn⟩ := he _ (ends_nil [] s3')
      obtain ⟨m, hm⟩ := p4.ends
      have := run_det hn hm
      injection this with this
      subst this
      exact hr.gs
    exact Or.inl ⟨s3, p1'.trans (p2.trans (p3.trans (p4.path w post))),
      hgs.trans (hp.gs.trans a1.gs)⟩
  · rcases hn with hn | hn
    · exact absurd hn hcase
    obtain ⟨k', s', p3⟩ := hr (by rw [v2, v3 n (by omega)]; exact hcase)
      (by rw [v3 n (by omega)]; exact hn)
    exact Or.inr ⟨k', s', p1'.trans (p2.trans p3)⟩

/-! ## The footprint of the emitted snippets -/

/-- Bytes which a snippet may touch: the thread's region, the return address and the `n`
bytes below the stack pointer. -/
def SnipFoot (g R sp : W) (n : Nat) (x : W) : Prop :=
  InRange x g regionSize ∨ InRange x R 8 ∨ InRange x (sp - BitVec.ofNat 64 n) n

theorem snipFoot_region {g R sp : W} {n a m : Nat} (h : a + m ≤ regionSize) :
    Covers (SnipFoot g R sp n) (g + BitVec.ofNat 64 a) m := by
  intro x hx
  have hr : regionSize = 8388608 := rfl
  exact Or.inl (inRange_sub hx (by rw [off_toNat (by omega)]; exact h))

theorem snipFoot_gs {g R sp : W} {n : Nat} : Covers (SnipFoot g R sp n) g 8 := by
  have := snipFoot_region (g := g) (R := R) (sp := sp) (n := n) (a := 0) (m := 8) (by decide)
  rwa [gs_zero] at this

theorem snipFoot_ret {g R sp : W} {n : Nat} : Covers (SnipFoot g R sp n) R 8 :=
  fun _ hx => Or.inr (Or.inl hx)

theorem snipFoot_save {g R sp : W} {n : Nat} :
    Covers (SnipFoot g R sp n) (sp - BitVec.ofNat 64 n) n := fun _ hx => Or.inr (Or.inr hx)

theorem Recorded.entries_in {g R sp : W} {l : List W} {s : State} {n : Nat} (h : Recorded g l s) {i : Nat}
    (hi : i ≤ l.length) :
    Covers (SnipFoot g R sp n) (s.shadow - BitVec.ofNat 64 (8 * (i + 1))) 8 := by
  rw [h.slot hi]
  have := h.room
  exact snipFoot_region (by omega)

/-- A push in a region with room touches only its footprint. -/
theorem IsPush.within {code : Code} {d : Int} {n : Nat} {free : Reg → Prop}
    (hc : IsPush code d n free) {g : W} {l : List W} {s : State} (h : Recorded g l s)
    (ha : Apart g (s.regs .rsp + BitVec.ofInt 64 d) n s)
    (hroom : 32 + 8 * l.length + 8 ≤ regionSize) :
    Within (SnipFoot g (s.regs .rsp + BitVec.ofInt 64 d) (s.regs .rsp) n) code code s := by
  obtain ⟨fl, sm, uo, ht, uf, bs, ts, mid, hf, hm, hok, hcode, rfl, rfl, rfl⟩ := hc
  obtain ⟨c1, t, t1, t2, b1, b2, he, hs, hn, _⟩ := (chosen_push hok ht).out
  have : code = c1 ++ saveRa t1 t2 t ++ restoreCode t1 t2 b1 b2 := by
    simp [jitStackPush, hf.notEmpty, hm, stackPushWith, he, body, hs.tmp1, hs.tmp2, hf.notSave,
      hf.noFrame, hs.restore] at hcode
    rw [← hcode]; simp
  rw [← hn] at ha ⊢
  conv => arg 3; rw [this]
  refine within_push hs s (h.pushSep ha hroom) snipFoot_ret (by rw [h.gs]; exact snipFoot_gs) ?_
    snipFoot_save _
  rw [h.pointer]; exact snipFoot_region hroom

/-- The first entry which ends the search. -/
theorem first_hit {s : State} {l : List W} (hl : s.Holds l) (R : W) :
    ∃ n, n ≤ l.length ∧ (∀ i, i < n → s.entry i ≠ s.mem.read64 R ∧ ¬ GuardLike (s.entry i)) ∧
      (s.entry n = s.mem.read64 R ∨ GuardLike (s.entry n)) := by
  obtain ⟨n, h1, h2, h3⟩ := exists_first (fun i => s.entry i = s.mem.read64 R ∨ GuardLike (s.entry i))
    l.length (Or.inr (by rw [hl.guard]; exact guardLike_zero))
  refine ⟨n, h1, fun i hi => ?_, h2⟩
  have := h3 i hi
  exact ⟨fun e => this (Or.inl e), fun e => this (Or.inr e)⟩

/-- A check touches only its footprint. -/
theorem IsCheck.within {code : Code} {d : Int} {n : Nat} {free : Reg → Prop}
    (hc : IsCheck code d n free) {g : W} {l : List W} {s : State} (h : Recorded g l s)
    (ha : Apart g (s.regs .rsp + BitVec.ofInt 64 d) n s) :
    Within (SnipFoot g (s.regs .rsp + BitVec.ofInt 64 d) (s.regs .rsp) n) code code s := by
  obtain ⟨fl, sm, uo, bs, addr, mid, hf, hm, hok, hcode, rfl, rfl, rfl⟩ := hc
  obtain ⟨c1, t, t1, t2, b1, b2, he, hs, hn, _⟩ := (chosen_pop hok).out
  have ecode : code = [] ++ c1 ++ validateRa t1 t2 t ++ restoreCode t1 t2 b1 b2 ++ [] := by
    simp [jitStackPop, hf.notEmpty, hm, stackPopWith, he, body, hs.tmp1, hs.tmp2, hf.notSave,
      hf.noFrame, hs.restore] at hcode
    rw [← hcode]; simp
  rw [← hn] at ha ⊢
  obtain ⟨k, hk, hlt, hend⟩ := first_hit h.holds (s.regs .rsp + BitVec.ofInt 64 (popDisp mid))
  have := path_check (F := SnipFoot g (s.regs .rsp + BitVec.ofInt 64 (popDisp mid)) (s.regs .rsp)
      (nsave b1 b2)) (pre := []) (post := []) (by simp) hs s k
    ((h.checkSep ha).mono (by omega)) snipFoot_ret (by rw [h.gs]; exact snipFoot_gs)
    (fun i hi => h.entries_in (by omega)) snipFoot_save hlt hend
  subst ecode
  rcases this with ⟨s', hp, _⟩ | ⟨k', s', hp⟩
  · exact .exits s' (by simpa using hp)
  · exact .traps k' s' (by simpa using hp)

/-- A register push touches only its footprint. -/
theorem IsRegPush.within {code : Code} {reg : Reg} {d : Int} (hc : IsRegPush code reg d) {g : W}
    {s : State} (h : s.gs = g) {n : Nat} :
    Within (SnipFoot g (s.regs .rsp + BitVec.ofInt 64 d) (s.regs .rsp) n) code code s := by
  obtain ⟨fl, sm, hf, hr, hcode⟩ := hc
  have : code = [.storeGs 8 reg, .load reg .rsp d] := by
    simp [jitRegisterPush, hf.notEmpty, hf.notSave, hr.get] at hcode
    exact hcode.symm
  subst this
  refine .exits _ (.step (touches_one rfl ?_) (.next rfl) (.step (touches_one rfl ?_) (.next rfl) .refl))
  · simp only [State.gsa, h]; exact snipFoot_region (by decide)
  · exact snipFoot_ret

/-- A register pop touches only its footprint. -/
theorem IsRegPop.within {code : Code} {reg : Reg} (hc : IsRegPop code reg) {g : W} {l : List W}
    {s : State} (h : Recorded g l s) (ha : Apart g (s.regs .rsp) 16 s) :
    Within (SnipFoot g (s.regs .rsp) (s.regs .rsp) 16) code code s := by
  obtain ⟨fl, sm, hf, hr, hcode⟩ := hc
  obtain ⟨t1, t2, t, c1, he, hs, _, _⟩ := regPop_emitted hf hr
  rw [he] at hcode
  obtain rfl := Option.some.inj hcode
  have e0 : s.ea .rsp 0 = s.regs .rsp := by simp [State.ea]
  have t0 : Touches (SnipFoot g (s.regs .rsp) (s.regs .rsp) 16) (.cmpMem reg .rsp 0) s :=
    touches_one rfl (by rw [e0]; exact snipFoot_ret)
  have last : ∀ s' : State, s'.gs = g → Touches (SnipFoot g (s.regs .rsp) (s.regs .rsp) 16)
      (.loadGs reg 8) s' := by
    intro s' hg
    refine touches_one rfl ?_
    simp only [State.gsa, hg]; exact snipFoot_region (by decide)
  generalize hw : regPopCode reg t1 t2 t c1 = w
  have ek : w = .cmpMem reg .rsp 0 :: .je .success ::
      (c1 ++ validateRa t1 t2 t ++ restoreCode t1 t2 true true ++
        [.bind .success, .loadGs reg 8]) := by rw [← hw]; simp [regPopCode]
  have ew : w = [.cmpMem reg .rsp 0, .je .success] ++ c1 ++ validateRa t1 t2 t ++
      restoreCode t1 t2 true true ++ [.bind .success, .loadGs reg 8] := by
    rw [← hw]; simp [regPopCode]
  by_cases heq : s.mem.read64 (s.regs .rsp) = s.regs reg
  · obtain ⟨n, hn⟩ := regPop_equal hs heq
    rw [hw] at hn
    have ht : target .success w = some [.loadGs reg 8] := by
      rw [← hw]; unfold regPopCode
      rw [target_append]
      · rfl
      · intro i hi
        simp only [List.mem_append] at hi
        rcases hi with ((hi | hi) | hi) | hi
        · simp at hi; rcases hi with rfl | rfl <;> rfl
        · rw [hs.code] at hi; exact saveCode_binds _ _ _ _ _ i hi
        · simp [validateRa] at hi
          rcases hi with rfl | rfl | rfl | rfl | rfl | rfl | rfl | rfl | rfl | rfl | rfl | rfl | rfl <;>
            rfl
        · simp [restoreCode] at hi; rcases hi with rfl | rfl <;> rfl
    refine .exits ((cmpState reg s).set reg (s.mem.read64 (s.gs + 8))) ?_
    conv => arg 3; rw [ek]
    refine .step t0 (.next (cmpState_exec reg s)) (.step (touches_none rfl)
      (.goto (l := .success) (s' := cmpState reg s) ?_ ht)
      (.step (last _ h.gs) (.next (loadGs_exec reg _)) .refl))
    simp [exec, cmpState_zf, heq]
  · have hc : Recorded g l (cmpState reg s) := h.keep rfl fun _ _ => rfl
    have e1 : (cmpState reg s).regs .rsp + BitVec.ofInt 64 0 = s.regs .rsp := by simp [cmpState]
    have ha' : Apart g ((cmpState reg s).regs .rsp + BitVec.ofInt 64 0) (nsave true true)
        (cmpState reg s) := by rw [e1]; exact ⟨ha.ret, ha.save, ha.ret_save⟩
    obtain ⟨k, hk, hlt, hend⟩ := first_hit hc.holds ((cmpState reg s).regs .rsp + BitVec.ofInt 64 0)
    have := path_check (F := SnipFoot g (s.regs .rsp) (s.regs .rsp) 16)
      (pre := [.cmpMem reg .rsp 0, .je .success]) (post := [.bind .success, .loadGs reg 8]) (by
        intro l i hi
        simp at hi
        rcases hi with rfl | rfl <;> rfl) hs (cmpState reg s) k
      ((hc.checkSep ha').mono (by omega)) (by rw [e1]; exact snipFoot_ret)
      (by rw [hc.gs]; exact snipFoot_gs) (fun i hi => hc.entries_in (by omega)) snipFoot_save hlt hend
    dsimp only at this
    rw [← ew] at this
    have first : ∀ k2 s2, Path (SnipFoot g (s.regs .rsp) (s.regs .rsp) 16) w
        (c1 ++ validateRa t1 t2 t ++ restoreCode t1 t2 true true ++ [.bind .success, .loadGs reg 8])
        (cmpState reg s) k2 s2 →
        Path (SnipFoot g (s.regs .rsp) (s.regs .rsp) 16) w w s k2 s2 := by
      intro k2 s2 hp
      conv => arg 3; rw [ek]
      refine .step t0 (.next (cmpState_exec reg s)) (.step (touches_none rfl)
        (.next (s' := cmpState reg s) ?_) hp)
      simp [exec, cmpState_zf, Ne.symm heq]
    rcases this with ⟨s', hp, hg⟩ | ⟨k', s', hp⟩
    · exact .exits _ ((first _ _ hp).trans (.step (touches_none rfl) (.next rfl)
        (.step (last s' (hg.trans hc.gs)) (.next rfl) .refl)))
    · exact .traps k' s' (first _ _ hp)

end Verif
