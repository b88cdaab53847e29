import Verif.Signals
import Verif.Witness

/-!
# Executing snippets on concrete states

A concrete state lists registers and the words written so far, so that an execution can be computed by the
kernel.  Used for examples only.
-/

namespace Verif

/-- A state whose memory is given by the words written, latest first. -/
structure LogState where
  regs : List (Reg × W)
  flags : W
  gs : W
  log : List (W × W)
  deriving DecidableEq, Repr

/-- The value of a register; those which are not listed are 0. -/
def LogState.reg (c : LogState) (r : Reg) : W := (c.regs.lookup r).getD 0

/-- The state which a log stands for. -/
def LogState.state (c : LogState) : State := ⟨c.reg, c.flags, c.gs, memOf c.log⟩

/-- The same registers in the same order, one of them changed. -/
def setReg (r : Reg) (v : W) : List (Reg × W) → List (Reg × W)
  | [] => [(r, v)]
  | p :: l => if r = p.1 then (r, v) :: l else p :: setReg r v l

theorem lookup_setReg (r : Reg) (v : W) (r' : Reg) : ∀ l : List (Reg × W),
    (setReg r v l).lookup r' = if r' = r then some v else l.lookup r'
  | [] => by
    by_cases h : r' = r
    · simp [setReg, h]
    · simp [setReg, List.lookup, h, show (r' == r) = false from beq_false_of_ne h]
  | p :: l => by
    have ih := lookup_setReg r v r' l
    by_cases h : r = p.1
    · subst h
      by_cases h' : r' = p.1
      · simp [setReg, h']
      · simp [setReg, List.lookup, h', show (r' == p.1) = false from beq_false_of_ne h']
    · rw [setReg, if_neg h]
      by_cases h' : r' = p.1
      · subst h'
        simp [List.lookup, show ¬ p.1 = r from fun e => h e.symm]
      · simp [List.lookup, ih, show (r' == p.1) = false from beq_false_of_ne h']

/-- The word at `a`; undefined if a word which overlaps it partially was written. -/
def cread (a : W) : List (W × W) → Option W
  | [] => some 0
  | (b, v) :: l => if a = b then some v else
      if 8 ≤ (b - a).toNat ∧ 8 ≤ (a - b).toNat then cread a l else none

theorem cread_read {a : W} : ∀ {l : List (W × W)} {v : W}, cread a l = some v → (memOf l).read64 a = v
  | [], v, h => by
    simp only [cread, Option.some.injEq] at h
    subst h; simp [memOf, Mem.read64]
  | (b, w) :: l, v, h => by
    simp only [cread] at h
    have e : memOf ((b, w) :: l) = (memOf l).write64 b w := rfl
    split at h
    · next hab =>
      subst hab
      rw [e, read64_write64]; exact Option.some.inj h
    · split at h
      · next hs =>
        rw [e, read64_write64_sep _ _ _ _ (sep_of_le (by decide) (by decide) hs)]
        exact cread_read h
      · simp at h

/-- A register is assigned. -/
def LogState.set (c : LogState) (r : Reg) (v : W) : LogState := { c with regs := setReg r v c.regs }

theorem LogState.state_set (c : LogState) (r : Reg) (v : W) : (c.set r v).state = c.state.set r v := by
  have : (c.set r v).reg = fun r' => if r' = r then v else c.reg r' := by
    funext r'
    simp only [LogState.set, LogState.reg, lookup_setReg]
    split <;> rfl
  simp only [LogState.state, State.set, this]
  rfl

/-- Result of one instruction. -/
inductive LogStep
  | next (c : LogState)
  | goto (l : Label) (c : LogState)

/-- The step which a step of logs stands for. -/
def LogStep.step : LogStep → Step
  | .next c => .next c.state
  | .goto l c => .goto l c.state

/-- The address `d(b)`. -/
def LogState.ea (c : LogState) (b : Reg) (d : Int) : W := c.reg b + BitVec.ofInt 64 d

/-- The address `gs:d`. -/
def LogState.gsa (c : LogState) (d : Int) : W := c.gs + BitVec.ofInt 64 d

/-- The instructions of the snippets. -/
def cexec : Instr → LogState → Option LogStep
  | .push r, c =>
    let sp := c.reg .rsp - 8
    some (.next { c.set .rsp sp with log := (sp, c.reg r) :: c.log })
  | .pop r, c => (cread (c.reg .rsp) c.log).map fun v => .next ((c.set .rsp (c.reg .rsp + 8)).set r v)
  | .load r b d, c => (cread (c.ea b d) c.log).map fun v => .next (c.set r v)
  | .store b d r, c => some (.next { c with log := (c.ea b d, c.reg r) :: c.log })
  | .loadGs r d, c => (cread (c.gsa d) c.log).map fun v => .next (c.set r v)
  | .storeGs d r, c => some (.next { c with log := (c.gsa d, c.reg r) :: c.log })
  | .lea r b d, c => some (.next (c.set r (c.ea b d)))
  | .addGs d i, c => (cread (c.gsa d) c.log).map fun v =>
      .next { c with log := (c.gsa d, v + BitVec.ofInt 64 i) :: c.log, flags := addFlags v (BitVec.ofInt 64 i) }
  | .subGs d i, c => (cread (c.gsa d) c.log).map fun v =>
      .next { c with log := (c.gsa d, v - BitVec.ofInt 64 i) :: c.log, flags := cmpFlags v (BitVec.ofInt 64 i) }
  | .cmpMem r b d, c => (cread (c.ea b d) c.log).map fun v => .next { c with flags := cmpFlags (c.reg r) v }
  | .cmpDword b i, c => (cread (c.reg b) c.log).map fun v =>
      .next { c with flags := cmpFlags (v.setWidth 32) (BitVec.ofInt 32 i) }
  | .je l, c => some (if c.flags.getLsbD 6 then .goto l c else .next c)
  | .jne l, c => some (if c.flags.getLsbD 6 then .next c else .goto l c)
  | .jmp l, c => some (.goto l c)
  | .bind _, c => some (.next c)
  | _, _ => none

theorem cexec_exec {i : Instr} {c : LogState} {t : LogStep} (h : cexec i c = some t) :
    exec i c.state = t.step := by
  cases i <;> simp only [cexec, Option.map_eq_some_iff, Option.some.injEq, reduceCtorEq] at h
  case push r =>
    subst h
    simp only [exec, LogStep.step, State.pushW, Step.next.injEq]
    exact (congrArg (fun s : State => { s with mem := (memOf c.log).write64 (c.reg .rsp - 8) (c.reg r) })
      (c.state_set .rsp (c.reg .rsp - 8))).symm
  case pop r =>
    obtain ⟨v, h1, rfl⟩ := h
    have := cread_read h1
    simp only [exec, LogStep.step, LogState.state_set, Step.next.injEq]
    rw [show c.state.mem.read64 (c.state.regs .rsp) = v from this]; rfl
  case load r b d =>
    obtain ⟨v, h1, rfl⟩ := h
    have := cread_read h1
    simp only [exec, LogStep.step, LogState.state_set]
    rw [show c.state.mem.read64 (c.state.ea b d) = v from this]
  case store b d r => subst h; rfl
  case loadGs r d =>
    obtain ⟨v, h1, rfl⟩ := h
    have := cread_read h1
    simp only [exec, LogStep.step, LogState.state_set]
    rw [show c.state.mem.read64 (c.state.gsa d) = v from this]
  case storeGs d r => subst h; rfl
  case lea r b d =>
    subst h
    simp only [exec, LogStep.step, LogState.state_set]; rfl
  case addGs d i =>
    obtain ⟨v, h1, rfl⟩ := h
    have := cread_read h1
    simp only [exec, LogStep.step]
    rw [show c.state.mem.read64 (c.state.gsa d) = v from this]; rfl
  case subGs d i =>
    obtain ⟨v, h1, rfl⟩ := h
    have := cread_read h1
    simp only [exec, LogStep.step]
    rw [show c.state.mem.read64 (c.state.gsa d) = v from this]; rfl
  case cmpMem r b d =>
    obtain ⟨v, h1, rfl⟩ := h
    have := cread_read h1
    simp only [exec, LogStep.step]
    rw [show c.state.mem.read64 (c.state.ea b d) = v from this]; rfl
  case cmpDword b i =>
    obtain ⟨v, h1, rfl⟩ := h
    have := cread_read h1
    simp only [exec, LogStep.step]
    rw [read32_eq_low, show c.state.mem.read64 (c.state.regs b) = v from this]; rfl
  case je l =>
    subst h
    show (if c.flags.getLsbD 6 then _ else _) = _
    split <;> rfl
  case jne l =>
    subst h
    show (if c.flags.getLsbD 6 then _ else _) = _
    split <;> rfl
  case jmp l => subst h; rfl
  case bind => subst h; rfl

/-- Decidable form of `RoomFor`. -/
def roomOk (g : W) : Code → LogState → Bool
  | .loadGs _ 0 :: _, c => (cread (c.gsa 0) c.log).any fun v => decide ((v - g).toNat + 8 ≤ regionSize)
  | _, _ => true

theorem roomOk_fits {g : W} {k : Code} {c : LogState} (h : roomOk g k c = true) : RoomFor g k c.state := by
  rintro r k' rfl
  simp only [roomOk, Option.any_eq_true] at h
  obtain ⟨v, h1, h2⟩ := h
  have : c.state.shadow = v := by
    have := cread_read h1
    simpa [State.shadow, LogState.state, LogState.gsa] using this
  rw [HasRoom, this]; exact of_decide_eq_true h2

/-- `n` instructions of the snippet `w`, with room where it is needed. -/
def crun (g : W) (w : Code) : Nat → Code → LogState → Option (Code × LogState)
  | 0, k, c => some (k, c)
  | _ + 1, [], _ => none
  | n + 1, i :: k, c =>
    if roomOk g (i :: k) c then
      match cexec i c with
      | some (.next c') => crun g w n k c'
      | some (.goto l c') =>
        match target l w with
        | some k' => crun g w n k' c'
        | none => none
      | none => none
    else none

theorem crun_interrupted {g : W} {w : Code} {sig : Code → State → State → Prop}
    {fits : Code → State → Prop} (hf : ∀ k s, RoomFor g k s → fits k s) {k0 : Code} {s0 : State} :
    ∀ {n : Nat} {k k' : Code} {c c' : LogState}, Interrupted sig fits w k0 s0 k c.state →
      crun g w n k c = some (k', c') → Interrupted sig fits w k0 s0 k' c'.state
  | 0, k, k', c, c', h, e => by
    simp only [crun, Option.some.injEq, Prod.mk.injEq] at e
    obtain ⟨rfl, rfl⟩ := e
    exact h
  | n + 1, [], _, _, _, _, e => by simp [crun] at e
  | n + 1, i :: k, k', c, c', h, e => by
    simp only [crun] at e
    split at e
    · next hr =>
      have hr := hf _ _ (roomOk_fits hr)
      split at e
      · next c1 h1 => exact crun_interrupted hf (.instr h hr (.next (cexec_exec h1))) e
      · next l c1 h1 =>
        split at e
        · next k1 h2 => exact crun_interrupted hf (.instr h hr (.goto (cexec_exec h1) h2)) e
        · simp at e
      · simp at e
    · simp at e

/-- Memory outside of the words written. -/
theorem memOf_append {x : W} {l0 : List (W × W)} : ∀ {l : List (W × W)}, (∀ p ∈ l, ¬ InRange x p.1 8) →
    memOf (l ++ l0) x = memOf l0 x
  | [], _ => rfl
  | p :: _, h => (write64_outRange _ _ _ _ (h p (List.mem_cons_self ..))).trans
      (memOf_append fun q hq => h q (List.mem_cons_of_mem _ hq))

end Verif
