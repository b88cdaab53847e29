import Verif.Props.RegFrame
import Verif.Runtime

/-!
The four kinds of snippets which the rewriter inserts, as predicates on code: the code
is what the emitter returns for some admissible flags and analysis results.
-/

namespace Verif

/-- `code` is emitted by `JitStackPush`; it takes the return address from `rsp + d`, uses
`n` bytes below rsp and may clobber the registers in `free`. -/
def IsPush (code : Code) (d : Int) (n : Nat) (free : Reg → Prop) : Prop :=
  ∃ fl sm useOrig height useFixed blockStart trgStart mid, Normal fl ∧
    pushMove sm useOrig useFixed blockStart trgStart = some mid ∧
    ScratchOk fl (deadEntry sm) mid ∧
    jitStackPush fl sm useOrig height useFixed blockStart trgStart = some code ∧
    d = pushDisp sm mid height ∧ n = belowSp fl (deadEntry sm) mid ∧
    free = ScratchFree fl (deadEntry sm) mid

/-- `code` is emitted by `JitStackPop`. -/
def IsCheck (code : Code) (d : Int) (n : Nat) (free : Reg → Prop) : Prop :=
  ∃ fl sm useOrig blockStart addr mid, Normal fl ∧
    popMove sm useOrig blockStart = some mid ∧ ScratchOk fl (deadExit sm addr) mid ∧
    jitStackPop fl sm useOrig blockStart addr = some code ∧
    d = popDisp mid ∧ n = belowSp fl (deadExit sm addr) mid ∧
    free = ScratchFree fl (deadExit sm addr) mid

/-- `code` is emitted by `JitRegisterPush` for the frame register `reg`. -/
def IsRegPush (code : Code) (reg : Reg) (d : Int) : Prop :=
  ∃ fl sm, Normal fl ∧ RegChoice sm reg ∧ jitRegisterPush fl sm d = some code

/-- `code` is emitted by `JitRegisterPop` for the frame register `reg`. -/
def IsRegPop (code : Code) (reg : Reg) : Prop :=
  ∃ fl sm, Normal fl ∧ RegChoice sm reg ∧ jitRegisterPop fl sm = some code

theorem IsPush.run {code : Code} {d : Int} {n : Nat} {free : Reg → Prop}
    (h : IsPush code d n free) {s : State} (hs : PushSep (s.regs .rsp + BitVec.ofInt 64 d) n s) :
    ∃ s', Exits code s s' ∧ Pushed free (s.regs .rsp + BitVec.ofInt 64 d) n s s' := by
  obtain ⟨fl, sm, uo, ht, uf, bs, ts, mid, hf, hm, hok, hc, rfl, rfl, rfl⟩ := h
  obtain ⟨code', he, hx⟩ := push_correct hf hok ht
  have : code' = code := by
    simp [jitStackPush, hf.notEmpty, hm, he] at hc
    exact hc
  subst this
  exact hx s hs

theorem IsCheck.run {code : Code} {d : Int} {n : Nat} {free : Reg → Prop}
    (h : IsCheck code d n free) {s : State} {l : List W} (hl : s.Holds l)
    (hs : CheckSep (s.regs .rsp + BitVec.ofInt 64 d) n (l.length + 1) s) :
    match scan (s.mem.read64 (s.regs .rsp + BitVec.ofInt 64 d)) l with
    | some i => ∃ s', Exits code s s' ∧ Checked free n i s s'
    | none => Traps code s := by
  obtain ⟨fl, sm, uo, bs, addr, mid, hf, hm, hok, hc, rfl, rfl, rfl⟩ := h
  obtain ⟨code', he, hx⟩ := pop_scan hf hok
  have : code' = code := by
    have e : jitStackPop fl sm uo bs addr = some code' := by
      unfold jitStackPop
      rw [if_neg hf.notEmpty, hm]
      exact he
    rw [e] at hc
    exact Option.some.inj hc
  subst this
  exact hx s l hl hs

/-- State after a register push. -/
def regPushed (reg : Reg) (d : Int) (s : State) : State :=
  State.set { s with mem := s.mem.write64 (s.gs + 8) (s.regs reg) } reg
    (s.mem.read64 (s.regs .rsp + BitVec.ofInt 64 d))

theorem IsRegPush.run {code : Code} {reg : Reg} {d : Int} (h : IsRegPush code reg d) {s : State}
    (hs : Sep (s.regs .rsp + BitVec.ofInt 64 d) 8 (s.gs + 8) 8) :
    Exits code s (regPushed reg d s) := by
  obtain ⟨fl, sm, hf, hr, hc⟩ := h
  obtain ⟨code', he, hx⟩ := regPush_exits hf hr d
  rw [he] at hc
  obtain rfl := Option.some.inj hc
  exact hx s hs

/-- State after a register pop which found the return address intact. -/
def regPopped (reg : Reg) (s : State) : State :=
  (cmpState reg s).set reg (s.mem.read64 (s.gs + 8))

theorem IsRegPop.run {code : Code} {reg : Reg} (h : IsRegPop code reg) {s : State}
    (hs : s.mem.read64 (s.regs .rsp) = s.regs reg) : Exits code s (regPopped reg s) := by
  obtain ⟨fl, sm, hf, hr, hc⟩ := h
  obtain ⟨t1, t2, t, c1, he, hsh, _, _⟩ := regPop_emitted hf hr
  rw [he] at hc
  obtain rfl := Option.some.inj hc
  exact regPop_equal hsh hs

/-- A register pop which found the return address changed. -/
theorem IsRegPop.differ {code : Code} {reg : Reg} (h : IsRegPop code reg) {s : State} {l : List W}
    (hne : s.mem.read64 (s.regs .rsp) ≠ s.regs reg) (hl : s.Holds l)
    (hs : CheckSep (s.regs .rsp) 16 (l.length + 1) s) :
    match scan (s.mem.read64 (s.regs .rsp)) l with
    | some _ => ∃ s', Exits code s s'
    | none => Traps code s := by
  obtain ⟨fl, sm, hf, hr, hc⟩ := h
  obtain ⟨t1, t2, t, c1, he, hsh, _, _⟩ := regPop_emitted hf hr
  rw [he] at hc
  obtain rfl := Option.some.inj hc
  exact regPop_differ hsh hne hl hs

end Verif
