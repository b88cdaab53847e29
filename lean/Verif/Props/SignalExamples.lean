import Verif.Props.SignalClaims
import Verif.Concrete
import Verif.Props.Honest
import Verif.Props.Threads

/-! Concrete executions with signal handlers (C99): what goes right and what goes wrong. -/

namespace Verif

/-! ## A handler -/

/-- The check emitted without dead registers. -/
def demoCheck : Code :=
  [.push .r10, .push .r11, .loadGs .r10 0, .bind .loop, .lea .r10 .r10 (-8), .load .r11 .r10 0,
    .storeGs 0 .r10, .cmpMem .r11 .rsp 16, .je .done, .cmpDword .r10 0, .je .error, .jmp .loop,
    .bind .error, .illegal, .bind .done, .pop .r11, .pop .r10]

theorem demoCheck_isCheck : ∃ free, IsCheck demoCheck 0 16 free :=
  ⟨_, {}, none, false, 0, 0, none, ⟨by decide, by decide, rfl⟩, rfl, ⟨by simp, by simp⟩, rfl, rfl, rfl, rfl⟩

/-- The region of the example. -/
def sigBase : W := 0x100000

/-- Calls are made from these two places. -/
def SigOwn (v : W) : Prop := v = 0x401000 ∨ v = 0x402000

theorem sigOwn_real : ∀ v, SigOwn v → ¬ GuardLike v := by
  rintro v (rfl | rfl) <;> decide

/-- A signal in state `c`: the handler calls a function from 0x402000, on the stack at 0x5000. -/
def hStart (c : LogState) : LogState := { c.set .rsp 0x5000 with log := (0x5000, 0x402000) :: c.log }

/-- The words written are on the handler's stack or in the region. -/
def Away (l : List (W × W)) : Prop :=
  ∀ p ∈ l, p.1.toNat + 8 ≤ 0x6000 ∨ (0x100000 ≤ p.1.toNat ∧ p.1.toNat ≤ 0x200000)

instance (l : List (W × W)) : Decidable (Away l) := by unfold Away; infer_instance

/-- The handler, which has nothing but a push and a check: the state in which the signal has been
handled. -/
def handler (c : LogState) : Option LogState :=
  match crun sigBase demoPush 9 demoPush (hStart c) with
  | some ([], c1) =>
    match crun sigBase demoCheck 11 demoCheck c1 with
    | some ([], c2) =>
      if c1.reg .rsp = 0x5000 ∧ cread 0x5000 c1.log = some 0x402000 ∧
          c2.log = c2.log.take (c2.log.length - c.log.length) ++ c.log ∧
          Away (c2.log.take (c2.log.length - c.log.length)) then some { c with log := c2.log }
      else none
    | _ => none
  | _ => none

theorem away_keeps {l : List (W × W)} (h : Away l) {x : W} (h1 : 0x6000 ≤ x.toNat) (h2 : x.toNat < 0x8000) :
    ∀ p ∈ l, ¬ InRange x p.1 8 := by
  intro p hp hx
  have := h p hp
  unfold InRange at hx
  bv_omega

theorem apart_at {s : State} {a : W} (h : s.regs .rsp = a) (h1 : 0x1000 ≤ a.toNat) (h2 : a.toNat < 0x8000) :
    Apart sigBase (s.retAddr 0) 16 s := by
  have e : s.retAddr 0 = a := by
    rw [State.retAddr, h]; simp
  have hz : regionSize = 8388608 := rfl
  unfold sigBase
  constructor
  · rw [e]; exact sep_of_le (by decide) (by decide) (by rw [hz]; constructor <;> bv_omega)
  · rw [h]; exact sep_of_le (by decide) (by decide) (by rw [hz]; constructor <;> bv_omega)
  · rw [e, h]; exact sep_of_le (by decide) (by decide) (by constructor <;> bv_omega)

theorem retAddr_zero (s : State) : s.retAddr 0 = s.regs .rsp := by simp [State.retAddr]

/-- What a handler may not touch during the snippets at 0x7000. -/
def NearStack (x : W) : Prop := 0x6000 ≤ x.toNat ∧ x.toNat < 0x8000

theorem handler_handled {c c' : LogState} (h : handler c = some c') (win : Code → Prop) (n : Nat)
    {K : W → Prop} (hK : ∀ x, K x → NearStack x) :
    (Handled win SigOwn sigBase (n + 1)).back K c.state c'.state := by
  obtain ⟨fp, ip⟩ := demoPush_isPush
  obtain ⟨fc, ic⟩ := demoCheck_isCheck
  simp only [handler] at h
  split at h
  · next c1 g1 =>
    split at h
    · next c2 g2 =>
      split at h
      · next hc =>
        obtain ⟨h1, h2, h3, h4⟩ := hc
        obtain rfl := Option.some.inj h
        have sp0 : (hStart c).state.regs .rsp = 0x5000 := by
          show ((setReg .rsp 0x5000 c.regs).lookup .rsp).getD 0 = _
          simp [lookup_setReg]
        have r0 : (hStart c).state.mem.read64 ((hStart c).state.retAddr 0) = 0x402000 := by
          rw [retAddr_zero, sp0]; exact read64_write64 ..
        refine ⟨(hStart c).state, c2.state, ⟨rfl, fun x hx => ?_⟩, ?_, ⟨rfl, rfl, rfl, rfl, fun x hx => ?_⟩⟩
        · refine write64_outRange _ _ _ _ fun hr => ?_
          unfold InRange sigBase regionSize at *
          bv_omega
        · have s1 := SigStep.call (sig := Handled win SigOwn sigBase n) (win := win) (own := SigOwn)
            (g := sigBase) (p := []) ip (apart_at sp0 (by decide) (by decide))
            (by rw [r0]; exact Or.inr rfl) (crun_interrupted (fun _ _ h => h) .refl g1)
          rw [r0] at s1
          have s2 := SigStep.ret (sig := Handled win SigOwn sigBase n) (win := win) (own := SigOwn)
            (g := sigBase) (p := []) (ra := 0x402000) ic (apart_at (s := c1.state) h1 (by decide) (by decide))
            (by rw [retAddr_zero, show c1.state.regs .rsp = 0x5000 from h1]; exact cread_read h2)
            (crun_interrupted (fun _ _ _ => trivial) .refl g2)
          exact .step (.step .refl s1) s2
        · obtain ⟨n1, n2⟩ := hK x hx
          show memOf c2.log x = memOf c.log x
          rw [h3]
          exact memOf_append (away_keeps h4 n1 n2)
      · simp at h
    · simp at h
  · simp at h

theorem relies_near {s : State} {n : Nat} (h1 : s.regs .rsp = 0x7000) (h2 : n ≤ 16) (x : W)
    (hx : Relies (s.retAddr 0) (s.regs .rsp) n x) : NearStack x := by
  rw [retAddr_zero, h1] at hx
  unfold Relies InRange at hx
  unfold NearStack
  rcases hx with hx | hx
  · bv_omega
  · have : (BitVec.ofNat 64 n).toNat = n := by simp; omega
    bv_omega

/-- The state after `n` instructions. -/
def after (w : Code) (n : Nat) (k : Code) (c : LogState) : LogState :=
  ((crun sigBase w n k c).map (·.2)).getD c

theorem after_crun {w k k' : Code} {n : Nat} {c : LogState}
    (h : (crun sigBase w n k c).map (·.1) = some k') : crun sigBase w n k c = some (k', after w n k c) := by
  simp only [Option.map_eq_some_iff] at h
  obtain ⟨⟨k1, c1⟩, h1, rfl⟩ := h
  simp [after, h1]

/-- The state after the handler. -/
def handled (c : LogState) : LogState := (handler c).getD c

theorem handled_some {c : LogState} (h : (handler c).isSome = true) : handler c = some (handled c) := by
  obtain ⟨c', e⟩ := Option.isSome_iff_exists.1 h
  simp [handled, e]

/-! ## A handler in the window of a push -/

/-- A function called from 0x401000 is entered, nothing is recorded. -/
def p0 : LogState := ⟨[(.rsp, 0x7000), (.r10, 7), (.r11, 8)], 0x246, sigBase,
  [(0x7000, 0x401000), (0x100000, 0x100020)]⟩

theorem p0_recorded : Recorded sigBase [] p0.state where
  gs := rfl
  pointer := cread_read (a := 0x100000) (l := p0.log) (by decide)
  holds := ⟨fun i h => absurd h (Nat.not_lt_zero i), by decide +kernel⟩
  guard := cread_read (a := 0x100010) (l := p0.log) (by decide)
  room := by decide

/-- The return address has been stored, the pointer has not been moved. -/
def p1 : LogState := after demoPush 5 demoPush p0

/-- The push has been completed after the handler. -/
def p2 : LogState := after demoPush 4 (demoPush.drop 5) (handled p1)

/-- The check of the same function has found nothing. -/
def p3 : LogState := after demoCheck 19 demoCheck p2

set_option maxRecDepth 20000

/-- C99 does not hold without the restriction: an honest thread is killed, when a handler runs between the
two stores of a push. -/
theorem C99_refuted_push : (∀ v, SigOwn v → ¬ GuardLike v) ∧ Recorded sigBase [] p0.state ∧
    SigRun (Handled (fun _ => False) SigOwn sigBase 1) (fun _ => False) SigOwn sigBase
      (.run p0.state [] none) .killed := by
  obtain ⟨fp, ip⟩ := demoPush_isPush
  obtain ⟨fc, ic⟩ := demoCheck_isCheck
  have r0 : p0.state.mem.read64 (p0.state.retAddr 0) = 0x401000 := cread_read (l := p0.log) (by decide)
  have sp2 : p2.state.regs .rsp = 0x7000 := by decide +kernel
  have r2 : cread 0x7000 p2.log = some 0x401000 := by decide +kernel
  have e1 := after_crun (w := demoPush) (k := demoPush) (k' := demoPush.drop 5) (n := 5) (c := p0)
    (by decide +kernel)
  have eh := handled_some (c := p1) (by decide +kernel)
  have e2 := after_crun (w := demoPush) (k := demoPush.drop 5) (k' := []) (n := 4) (c := handled p1)
    (by decide +kernel)
  have e3 := after_crun (w := demoCheck) (k := demoCheck) (k' := demoCheck.drop 13) (n := 19) (c := p2)
    (by decide +kernel)
  refine ⟨sigOwn_real, p0_recorded, ?_⟩
  have s1 := SigStep.call (sig := Handled (fun _ => False) SigOwn sigBase 1) (win := fun _ => False)
    (own := SigOwn) (g := sigBase) (p := []) ip
    (apart_at (s := p0.state) (a := 0x7000) rfl (by decide) (by decide)) (by rw [r0]; exact Or.inl rfl)
    (crun_interrupted (fun _ _ h => h) (.signal (crun_interrupted (fun _ _ h => h) .refl e1)
      ⟨handler_handled eh _ 0 (relies_near rfl (by decide)), fun h => h.elim⟩) e2)
  rw [r0] at s1
  have s2 := SigStep.retTrap (sig := Handled (fun _ => False) SigOwn sigBase 1) (win := fun _ => False)
    (own := SigOwn) (g := sigBase) (p := []) (ra := 0x401000) (k := demoCheck.drop 14) ic
    (apart_at sp2 (by decide) (by decide)) (by rw [retAddr_zero, sp2]; exact cread_read r2)
    (crun_interrupted (fun _ _ _ => trivial) .refl e3)
  exact .step (.step .refl s1) s2

/-! ## Two handlers while the pointer is at the guards -/

/-- One address is recorded, but the return address has been overwritten with 0x403000, which is also in the
word where frame registers are saved. -/
def q0 : LogState := ⟨[(.rsp, 0x7000), (.r10, 7), (.r11, 8)], 0x246, sigBase,
  [(0x7000, 0x403000), (0x100000, 0x100028), (0x100020, 0x401000), (0x100008, 0x403000)]⟩

theorem q0_recorded : Recorded sigBase [0x401000] q0.state where
  gs := rfl
  pointer := cread_read (a := 0x100000) (l := q0.log) (by decide)
  holds := ⟨fun i h => by
      obtain rfl : i = 0 := by simp at h; exact h
      exact cread_read (a := 0x100020) (l := q0.log) (v := 0x401000) (by decide), by decide +kernel⟩
  guard := cread_read (a := 0x100010) (l := q0.log) (by decide)
  room := by decide

/-- The pointer is at the first guard. -/
def q1 : LogState := after demoCheck 15 demoCheck q0

/-- The pointer is at the second guard. -/
def q2 : LogState := after demoCheck 8 (demoCheck.drop 7) (handled q1)

/-- The check has let the address pass. -/
def q3 : LogState := after demoCheck 12 (demoCheck.drop 7) (handled q2)

theorem crun_traps {w k : Code} {n : Nat} {c c' : LogState} (e : crun sigBase w n w c = some (.illegal :: k, c')) :
    Traps w c.state := by
  have : Interrupted (fun _ _ _ => False) (fun _ _ => True) w w c.state (.illegal :: k) c'.state :=
    crun_interrupted (fun _ _ _ => trivial) .refl e
  have key : ∀ {k : Code} {t : State}, Interrupted (fun _ _ _ => False) (fun _ _ => True) w w
      c.state k t → ∀ o, Ends w k t o → Ends w w c.state o := by
    intro k t h
    induction h with
    | refl => exact fun _ h => h
    | instr _ _ hg ih => exact fun o h => ih o (hg.ends h)
    | signal _ h => exact h.elim
  obtain ⟨n, h⟩ := key this (.trap c'.state) ⟨1, rfl⟩
  exact ⟨n, _, h⟩

/-- Without signals the check traps. -/
theorem q0_traps : Traps demoCheck q0.state :=
  crun_traps (k := demoCheck.drop 14) (after_crun (w := demoCheck) (k := demoCheck) (k' := demoCheck.drop 13) (n := 19)
    (c := q0) (by decide +kernel))

/-- C99: with signals at the guards a check accepts an address which nobody has recorded.  Both handlers are
honest, and they run outside the window of the pushes. -/
theorem C99_refuted_guard : (∀ v, SigOwn v → ¬ GuardLike v) ∧ Recorded sigBase [0x401000] q0.state ∧
    (∃ free, IsCheck demoCheck 0 16 free) ∧ Apart sigBase (q0.state.retAddr 0) 16 q0.state ∧
    Interrupted (At ((Handled BeforePointer SigOwn sigBase 1).back (Relies (q0.state.retAddr 0) (q0.state.regs .rsp) 16))
      BeforePointer sigBase) (fun _ _ => True) demoCheck demoCheck q0.state [] q3.state ∧
    q0.state.mem.read64 (q0.state.retAddr 0) = 0x403000 ∧ ¬ SigOwn 0x403000 ∧ Traps demoCheck q0.state := by
  have e1 := after_crun (w := demoCheck) (k := demoCheck) (k' := demoCheck.drop 7) (n := 15) (c := q0)
    (by decide +kernel)
  have h1 := handled_some (c := q1) (by decide +kernel)
  have e2 := after_crun (w := demoCheck) (k := demoCheck.drop 7) (k' := demoCheck.drop 7) (n := 8)
    (c := handled q1) (by decide +kernel)
  have h2 := handled_some (c := q2) (by decide +kernel)
  have e3 := after_crun (w := demoCheck) (k := demoCheck.drop 7) (k' := []) (n := 12)
    (c := handled q2) (by decide +kernel)
  have nb : ¬ BeforePointer (demoCheck.drop 7) := fun h => h
  refine ⟨sigOwn_real, q0_recorded, demoCheck_isCheck, apart_at (a := 0x7000) rfl (by decide) (by decide),
    ?_, cread_read (l := q0.log) (by decide), fun h => by rcases h with h | h <;> exact absurd h (by decide),
    q0_traps⟩
  refine crun_interrupted (fun _ _ _ => trivial) (.signal (crun_interrupted (fun _ _ _ => trivial)
    (.signal (crun_interrupted (fun _ _ _ => trivial) .refl e1) ?_) e2) ?_) e3
  · exact ⟨handler_handled h1 _ 0 (relies_near rfl (by decide)), fun h => absurd h nb⟩
  · exact ⟨handler_handled h2 _ 0 (relies_near rfl (by decide)), fun h => absurd h nb⟩

/-! ## A jump out of a handler into the function which is returning -/

/-- A function which has called `sigsetjmp` is about to return to the address which is recorded. -/
def j0 : LogState := ⟨[(.rsp, 0x7000), (.r10, 7), (.r11, 8)], 0x246, sigBase,
  [(0x7000, 0x401000), (0x100000, 0x100028), (0x100020, 0x401000)]⟩

theorem j0_recorded : Recorded sigBase [0x401000] j0.state where
  gs := rfl
  pointer := cread_read (a := 0x100000) (l := j0.log) (by decide)
  holds := ⟨fun i h => by
      obtain rfl : i = 0 := by simp at h; exact h
      exact cread_read (a := 0x100020) (l := j0.log) (v := 0x401000) (by decide), by decide +kernel⟩
  guard := cread_read (a := 0x100010) (l := j0.log) (by decide)
  room := by decide

/-- The check has moved the pointer. -/
def j1 : LogState := after demoCheck 7 demoCheck j0

/-- The handler has jumped back into the function. -/
def j2 : LogState := { j0 with log := j1.log }

/-- C99: the returning function is still active, and a handler may jump back into it (`retJump` has it
abandoned).  If the check has moved the pointer by then, the return address, which nobody has touched, is no
longer recorded, and the function is killed when it returns in the end. -/
theorem C99_refuted_jump : (∀ v, SigOwn v → ¬ GuardLike v) ∧ Recorded sigBase [0x401000] j0.state ∧
    (∃ free, IsCheck demoCheck 0 16 free) ∧ Apart sigBase (j0.state.retAddr 0) 16 j0.state ∧
    j0.state.mem.read64 (j0.state.retAddr 0) = 0x401000 ∧
    Interrupted (At ((Handled BeforePointer SigOwn sigBase 1).back (Relies (j0.state.retAddr 0) (j0.state.regs .rsp) 16))
      BeforePointer sigBase) (fun _ _ => True) demoCheck demoCheck j0.state (demoCheck.drop 7) j1.state ∧
    (Handled BeforePointer SigOwn sigBase 1).away j1.state j2.state ∧
    j2.state.regs = j0.state.regs ∧ j2.state.mem.read64 (j0.state.retAddr 0) = 0x401000 ∧
    Traps demoCheck j2.state := by
  have e1 := after_crun (w := demoCheck) (k := demoCheck) (k' := demoCheck.drop 7) (n := 7) (c := j0)
    (by decide +kernel)
  refine ⟨sigOwn_real, j0_recorded, demoCheck_isCheck, apart_at (a := 0x7000) rfl (by decide) (by decide),
    cread_read (l := j0.log) (by decide), crun_interrupted (fun _ _ _ => trivial) .refl e1,
    ⟨j1.state, j1.state, [], none, ⟨rfl, fun _ _ => rfl⟩, .refl, ⟨?_, fun _ _ => rfl⟩⟩, rfl, ?_, ?_⟩
  · show sigBase = j1.gs
    decide +kernel
  · exact cread_read (a := 0x7000) (l := j1.log) (by decide +kernel)
  · exact crun_traps (k := demoCheck.drop 14) (after_crun (w := demoCheck) (k := demoCheck)
      (k' := demoCheck.drop 13) (n := 11) (c := j2) (by decide +kernel))

/-! ## Two register frames -/

/-- Entry of a function which keeps its return address in rax. -/
def leafPush : Code := [.storeGs 8 .rax, .load .rax .rsp 0]

/-- Its return. -/
def leafPop : Code := (jitRegisterPop {} { unusedRegs := ["x86_64::rax"] }).getD []

theorem leafPush_is : IsRegPush leafPush .rax 0 :=
  ⟨{}, { unusedRegs := ["x86_64::rax"] }, ⟨by decide, by decide, rfl⟩, ⟨rfl, by decide⟩, rfl⟩

theorem leafPop_is : IsRegPop leafPop .rax :=
  ⟨{}, { unusedRegs := ["x86_64::rax"] }, ⟨by decide, by decide, rfl⟩, ⟨rfl, by decide⟩, rfl⟩

/-- A function called from 0x401000 is entered; its caller has 5 in rax. -/
def l0 : LogState := ⟨[(.rsp, 0x7000), (.rax, 5)], 0x246, sigBase, [(0x7000, 0x401000), (0x100000, 0x100020)]⟩

/-- The function has been entered. -/
def l1 : LogState := after leafPush 2 leafPush l0

/-- A handler calls another such function. -/
def l2 : LogState := hStart l1

def l3 : LogState := after leafPush 2 leafPush l2

def l4 : LogState := after leafPop 3 leafPop l3

/-- The first function goes on after the handler. -/
def l5 : LogState := { l1 with log := l4.log }

def l6 : LogState := after leafPop 3 leafPop l5

theorem l0_recorded : Recorded sigBase [] l0.state where
  gs := rfl
  pointer := cread_read (a := 0x100000) (l := l0.log) (by decide)
  holds := ⟨fun i h => absurd h (Nat.not_lt_zero i), by decide +kernel⟩
  guard := cread_read (a := 0x100010) (l := l0.log) (by decide)
  room := by decide

theorem sep_leaf {s : State} {a : W} (h : s.regs .rsp = a) (h1 : 0x1000 ≤ a.toNat) (h2 : a.toNat < 0x8000) :
    Sep (s.retAddr 0) 8 sigBase regionSize := (apart_at h h1 h2).ret

/-- C99: a register-frame function, interrupted by a handler with another one, does not give its caller the
frame register back. -/
theorem C99_refuted_register : (∀ v, SigOwn v → ¬ GuardLike v) ∧ Recorded sigBase [] l0.state ∧
    SigStep (Handled BeforePointer SigOwn sigBase 1) BeforePointer SigOwn sigBase
      (.run l0.state [] none) (.run l1.state [] (some (.rax, 0x401000))) ∧
    SigStep (Handled BeforePointer SigOwn sigBase 1) BeforePointer SigOwn sigBase
      (.run l1.state [] (some (.rax, 0x401000))) (.run l5.state [] (some (.rax, 0x401000))) ∧
    SigStep (Handled BeforePointer SigOwn sigBase 1) BeforePointer SigOwn sigBase
      (.run l5.state [] (some (.rax, 0x401000))) (.run l6.state [] none) ∧
    l0.state.regs .rax = 5 ∧ l6.state.regs .rax = 0x401000 := by
  have e1 := after_crun (w := leafPush) (k := leafPush) (k' := []) (n := 2) (c := l0) (by decide +kernel)
  have e3 := after_crun (w := leafPush) (k := leafPush) (k' := []) (n := 2) (c := l2) (by decide +kernel)
  have e4 := after_crun (w := leafPop) (k := leafPop) (k' := []) (n := 3) (c := l3) (by decide +kernel)
  have e6 := after_crun (w := leafPop) (k := leafPop) (k' := []) (n := 3) (c := l5) (by decide +kernel)
  have r0 : l0.state.mem.read64 (l0.state.retAddr 0) = 0x401000 := cread_read (l := l0.log) (by decide)
  have r2 : l2.state.mem.read64 (l2.state.retAddr 0) = 0x402000 := cread_read (l := l2.log) (by decide +kernel)
  have s1 := SigStep.enter (sig := Handled BeforePointer SigOwn sigBase 1) (win := BeforePointer)
    (own := SigOwn) (g := sigBase) (p := []) leafPush_is
    (sep_leaf (s := l0.state) (a := 0x7000) rfl (by decide) (by decide))
    (crun_interrupted (fun _ _ _ => trivial) .refl e1)
  rw [r0] at s1
  have s3 := SigStep.enter (sig := Handled BeforePointer SigOwn sigBase 0) (win := BeforePointer)
    (own := SigOwn) (g := sigBase) (p := []) leafPush_is
    (sep_leaf (s := l2.state) (a := 0x5000) (by decide +kernel) (by decide) (by decide))
    (crun_interrupted (fun _ _ _ => trivial) .refl e3)
  rw [r2] at s3
  have s4 := SigStep.leave (sig := Handled BeforePointer SigOwn sigBase 0) (win := BeforePointer)
    (own := SigOwn) (g := sigBase) (p := []) (ra := 0x402000) (s := l3.state) leafPop_is
    (cread_read (l := l3.log) (by decide +kernel)) (crun_interrupted (fun _ _ _ => trivial) .refl e4)
  have s6 := SigStep.leave (sig := Handled BeforePointer SigOwn sigBase 1) (win := BeforePointer)
    (own := SigOwn) (g := sigBase) (p := []) (ra := 0x401000) (s := l5.state) leafPop_is
    (cread_read (l := l5.log) (by decide +kernel)) (crun_interrupted (fun _ _ _ => trivial) .refl e6)
  refine ⟨sigOwn_real, l0_recorded, s1, .signal ⟨l2.state, l4.state, ⟨rfl, fun x hx => ?_⟩,
    .step (.step .refl s3) s4, ⟨rfl, rfl, rfl, rfl, fun x hx => hx.elim⟩⟩, s6, rfl, by decide +kernel⟩
  refine write64_outRange _ _ _ _ fun hr => ?_
  unfold InRange sigBase regionSize at *
  bv_omega

/-! ## Where the theorems apply -/

/-- The pointer has not been loaded yet. -/
def g1 : LogState := after demoPush 3 demoPush p0

/-- The push has been completed after a handler. -/
def g2 : LogState := after demoPush 6 (demoPush.drop 3) (handled g1)

/-- The check has moved the pointer, but not compared the address. -/
def g3 : LogState := after demoCheck 7 demoCheck g2

/-- The check has been completed after a handler. -/
def g4 : LogState := after demoCheck 4 (demoCheck.drop 7) (handled g3)

/-- A push and a check, each interrupted by a handler with a push and a check; the second handler overwrites
the entry which is being looked at. -/
theorem C99_example : Recorded sigBase [] p0.state ∧
    SigRun (Handled BeforePointer SigOwn sigBase 1) BeforePointer SigOwn sigBase
      (.run p0.state [] none) (.run g2.state [0x401000] none) ∧
    SigRun (Handled BeforePointer SigOwn sigBase 1) BeforePointer SigOwn sigBase
      (.run g2.state [0x401000] none) (.run g4.state [] none) ∧
    cread 0x100020 g3.log = some 0x401000 ∧ cread 0x100020 (handled g3).log = some 0x402000 := by
  obtain ⟨fp, ip⟩ := demoPush_isPush
  obtain ⟨fc, ic⟩ := demoCheck_isCheck
  have r0 : p0.state.mem.read64 (p0.state.retAddr 0) = 0x401000 := cread_read (l := p0.log) (by decide)
  have sp2 : g2.state.regs .rsp = 0x7000 := by decide +kernel
  have r2 : cread 0x7000 g2.log = some 0x401000 := by decide +kernel
  have e1 := after_crun (w := demoPush) (k := demoPush) (k' := demoPush.drop 3) (n := 3) (c := p0)
    (by decide +kernel)
  have h1 := handled_some (c := g1) (by decide +kernel)
  have e2 := after_crun (w := demoPush) (k := demoPush.drop 3) (k' := []) (n := 6) (c := handled g1)
    (by decide +kernel)
  have e3 := after_crun (w := demoCheck) (k := demoCheck) (k' := demoCheck.drop 7) (n := 7) (c := g2)
    (by decide +kernel)
  have h3 := handled_some (c := g3) (by decide +kernel)
  have e4 := after_crun (w := demoCheck) (k := demoCheck.drop 7) (k' := []) (n := 4) (c := handled g3)
    (by decide +kernel)
  have s1 := SigStep.call (sig := Handled BeforePointer SigOwn sigBase 1) (win := BeforePointer)
    (own := SigOwn) (g := sigBase) (p := []) ip
    (apart_at (s := p0.state) (a := 0x7000) rfl (by decide) (by decide)) (by rw [r0]; exact Or.inl rfl)
    (crun_interrupted (fun _ _ h => h) (.signal (crun_interrupted (fun _ _ h => h) .refl e1)
      ⟨handler_handled h1 _ 0 (relies_near rfl (by decide)), fun h => absurd h (fun h => h)⟩) e2)
  rw [r0] at s1
  have s2 := SigStep.ret (sig := Handled BeforePointer SigOwn sigBase 1) (win := BeforePointer)
    (own := SigOwn) (g := sigBase) (p := []) (ra := 0x401000) ic
    (apart_at sp2 (by decide) (by decide)) (by rw [retAddr_zero, sp2]; exact cread_read r2)
    (crun_interrupted (fun _ _ _ => trivial) (.signal (crun_interrupted (fun _ _ _ => trivial) .refl e3)
      ⟨handler_handled h3 _ 0 (relies_near sp2 (by decide)), fun h => absurd h (fun h => h)⟩) e4)
  exact ⟨p0_recorded, .step .refl s1, .step .refl s2, by decide +kernel, by decide +kernel⟩

/-- The function has called another one. -/
def v1 : LogState := { g2.set .rsp 0x6800 with log := (0x6800, 0x402000) :: g2.log }

/-- That one has stored its return address, but not moved the pointer. -/
def v2 : LogState := after demoPush 5 demoPush v1

/-- A handler has overwritten it with its own. -/
def v3 : LogState := after demoPush 9 demoPush (hStart v2)

/-- The handler has jumped back to where the first function was. -/
def v4 : LogState := { g2 with log := v3.log }

/-- The first function has returned. -/
def v5 : LogState := after demoCheck 19 demoCheck v4

/-- A handler which interrupts a push in the window, makes a call and jumps to the pending function, whose
check finds its address below that of the handler's call. -/
theorem C99_example_jump :
    SigRun (Handled BeforePointer SigOwn sigBase 1) BeforePointer SigOwn sigBase
      (.run g2.state [0x401000] none) (.run v1.state [0x401000] none) ∧
    SigStep (Handled BeforePointer SigOwn sigBase 1) BeforePointer SigOwn sigBase
      (.run v1.state [0x401000] none) (.run v4.state [0x401000] none) ∧
    SigStep (Handled BeforePointer SigOwn sigBase 1) BeforePointer SigOwn sigBase
      (.run v4.state [0x401000] none) (.run v5.state [] none) ∧
    BeforePointer (demoPush.drop 5) ∧ cread 0x100028 v2.log = some 0x402000 ∧
    cread 0x100000 v4.log = some 0x100030 := by
  obtain ⟨fp, ip⟩ := demoPush_isPush
  obtain ⟨fc, ic⟩ := demoCheck_isCheck
  have out : ∀ (a v : W) (l : List (W × W)), a.toNat < 0x8000 → ∀ x, InRange x sigBase regionSize →
      memOf ((a, v) :: l) x = memOf l x := fun a v l h x hx =>
    write64_outRange _ _ _ _ fun hr => by
      unfold InRange sigBase regionSize at *
      bv_omega
  have sp1 : v1.state.regs .rsp = 0x6800 := by decide +kernel
  have r1 : v1.state.mem.read64 (v1.state.retAddr 0) = 0x402000 := by
    rw [retAddr_zero, sp1]; exact cread_read (a := 0x6800) (l := v1.log) (by decide +kernel)
  have sph : (hStart v2).state.regs .rsp = 0x5000 := by decide +kernel
  have rh : (hStart v2).state.mem.read64 ((hStart v2).state.retAddr 0) = 0x402000 := by
    rw [retAddr_zero, sph]; exact cread_read (a := 0x5000) (l := (hStart v2).log) (by decide +kernel)
  have sp4 : v4.state.regs .rsp = 0x7000 := by decide +kernel
  have e1 := after_crun (w := demoPush) (k := demoPush) (k' := demoPush.drop 5) (n := 5) (c := v1)
    (by decide +kernel)
  have e2 := after_crun (w := demoPush) (k := demoPush) (k' := []) (n := 9) (c := hStart v2)
    (by decide +kernel)
  have e3 := after_crun (w := demoCheck) (k := demoCheck) (k' := []) (n := 19) (c := v4) (by decide +kernel)
  have s2 := SigStep.call (sig := Handled BeforePointer SigOwn sigBase 0) (win := BeforePointer)
    (own := SigOwn) (g := sigBase) (p := []) ip (apart_at sph (by decide) (by decide))
    (by rw [rh]; exact Or.inr rfl) (crun_interrupted (fun _ _ h => h) .refl e2)
  have s3 := SigStep.callJump (sig := Handled BeforePointer SigOwn sigBase 1) (win := BeforePointer)
    (own := SigOwn) (g := sigBase) (p := [0x401000]) (s' := v4.state) 0 ip (apart_at sp1 (by decide) (by decide))
    (by rw [r1]; exact Or.inr rfl) (crun_interrupted (fun _ _ h => h) .refl e1)
    ⟨(hStart v2).state, v3.state, _, _, ⟨rfl, out 0x5000 _ _ (by decide)⟩, .step .refl s2,
      ⟨by decide +kernel, fun _ _ => rfl⟩⟩
  have s4 := SigStep.ret (sig := Handled BeforePointer SigOwn sigBase 1) (win := BeforePointer)
    (own := SigOwn) (g := sigBase) (p := []) (ra := 0x401000) ic (apart_at sp4 (by decide) (by decide))
    (by rw [retAddr_zero, sp4]; exact cread_read (a := 0x7000) (l := v4.log) (by decide +kernel))
    (crun_interrupted (fun _ _ _ => trivial) .refl e3)
  exact ⟨.step .refl (.work rfl (out 0x6800 _ _ (by decide)) (by simp)), s3, s4, rfl, by decide +kernel,
    by decide +kernel⟩

end Verif
