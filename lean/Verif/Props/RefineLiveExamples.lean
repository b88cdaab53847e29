import Verif.Props.RefinePlanExamples

/-! Examples for C106 and C107: registers and flags which are not live. -/

namespace Verif

/-! ## A program which uses its flags and registers -/

def liveJf : JitFlags := { optimizeRegs := true }

def liveNames : List String := ["x86_64::r10", "x86_64::r11", "x86_64::r8", "x86_64::r9"]

def liveDead : DeadNames := { entry := liveNames, exit := fun _ => some liveNames }

theorem liveNames_ok : NamesOk liveJf liveNames := fun _ _ => by
  refine ⟨by decide, by decide, ?_⟩
  intro n hn
  simp only [liveNames, List.mem_cons, List.not_mem_nil, or_false] at hn
  rcases hn with rfl | rfl | rfl | rfl
  · exact ⟨.r10, by decide, by decide⟩
  · exact ⟨.r11, by decide, by decide⟩
  · exact ⟨.r8, by decide, by decide⟩
  · exact ⟨.r9, by decide, by decide⟩

theorem liveDead_ok : DeadOk liveJf liveDead := ⟨liveNames_ok, fun _ _ h => by cases h; exact liveNames_ok⟩

namespace Small

theorem binaryOk_live {p : Small} (hh : p.height = some (-8)) (frame : Func → Reg) :
    BinaryOk p.binary {} liveJf p.code p.info (fun _ => {}) p.bfunc (fun _ => liveDead) frame :=
  { p.binaryOk hh frame with normal := ⟨by decide, by decide, rfl⟩, dead := fun _ _ => liveDead_ok }

/-- The snippets of the plans, if dead registers are used. -/
def pushLive (p : Small) (f : Func) (b : Blk) : Code :=
  (PushKind.emit liveJf ((p.sums f).jit liveDead) p.code (.stack false 0 false) (.blk b)).getD []

def checkLive (p : Small) (f : Func) (b : Blk) : Code :=
  (PopKind.emit liveJf ((p.sums f).jit liveDead) p.code (.stack false) (.blk b)).getD []

def snipLive (p : Small) : Func → Ev → Place → Code → State → W → Prop :=
  p.binary.SnippetAt liveJf (fun f => (p.sums f).jit liveDead) p.code p.plan

variable {p : Small}

theorem push_live (h : p.Ok) (hh : p.height = some (-8)) {f : Func} (hf : f ∈ p.code.funcs) {b : Blk}
    (hm : (.blk b, .stack false 0 false) ∈ (p.plan f).pushes) {r : W} {s : State} (hr : s.regs .rsp = r) :
    p.snipLive f .push (.blk b) (p.pushLive f b) s r := by
  obtain ⟨c, hc, _⟩ := plan_pushes (p.binaryOk_live hh fun _ => .rax) h.built hf hm
  refine ⟨_, hm, ?_, (atHeight_blk hr).1⟩
  unfold pushLive
  rw [hc]; rfl

theorem check_live (h : p.Ok) (hh : p.height = some (-8)) {f : Func} (hf : f ∈ p.code.funcs)
    (hcalls : NoCallAtCheck {} p.code (p.bfunc f)) {b : Blk}
    (hm : (.blk b, .stack false) ∈ (p.plan f).checks) {r : W} {s : State} (hr : s.regs .rsp = r) :
    p.snipLive f .check (.blk b) (p.checkLive f b) s r := by
  obtain ⟨c, hc, _⟩ := plan_checks (p.binaryOk_live hh fun _ => .rax) h.built hf hcalls hm
  refine ⟨_, hm, ?_, (atHeight_blk hr).2⟩
  unfold checkLive
  rw [hc]; rfl

end Small

/-- `goodProg` with instructions which use flags across pushes, and a register between pushes. -/
def liveScript : Nat → ScriptOp
  | 0 => .go 1
  | 1 => .cmp .rbx 2
  | 2 => .jz 3 19
  | 3 => .snip (goodProg.pushLive 0 2) 4
  | 4 => .set .r11 9 5
  | 5 => .test .r11 6 6
  | 6 => .call 0x402000 7
  | 7 => .snip (goodProg.pushLive 1 4) 8
  | 8 => .jz 9 9
  | 9 => .snip (goodProg.checkLive 1 4) 10
  | 10 => .cmp .rbx 11
  | 11 => .snip (goodProg.pushLive 2 5) 12
  | 12 => .jz 13 13
  | 13 => .snip (goodProg.checkLive 2 5) 14
  | 14 => .up 15
  | 15 => .go 16
  | 16 => .snip (goodProg.checkLive 0 3) 17
  | 17 => .up 18
  | 19 => .up 18
  | _ => .halt

def liveSp : Nat → W
  | 7 | 8 | 9 | 10 | 11 | 12 | 13 | 14 => 0x6ff8
  | 18 => 0x7008
  | _ => 0x7000

def liveView : Nat → List XAct
  | 0 => [base []]
  | 1 | 2 | 3 => [base [.block 0]]
  | 4 => [base [.block 0, .push]]
  | 5 | 6 | 15 => [base [.block 0, .push, .block 2]]
  | 7 => upon 1 [] [.block 0, .push, .block 2]
  | 8 => upon 1 [.push] [.block 0, .push, .block 2]
  | 9 => upon 1 [.push, .block 4] [.block 0, .push, .block 2]
  | 10 => upon 1 [.push, .block 4, .check] [.block 0, .push, .block 2]
  | 11 => upon 2 [] [.block 0, .push, .block 2]
  | 12 => upon 2 [.push] [.block 0, .push, .block 2]
  | 13 => upon 2 [.push, .block 5] [.block 0, .push, .block 2]
  | 14 => upon 2 [.push, .block 5, .check] [.block 0, .push, .block 2]
  | 16 => [base [.block 0, .push, .block 2, .block 3]]
  | 17 => [base [.block 0, .push, .block 2, .block 3, .check]]
  | 19 => [base [.block 0, .block 1]]
  | _ => []

/-- What has been lost. -/
def liveRegs : Nat → List Reg
  | 0 | 1 | 2 | 3 | 19 => []
  | 5 | 6 | 7 => [.r8, .r9, .r10]
  | _ => [.r8, .r9, .r10, .r11]

def liveFlags : Nat → Bool
  | 10 | 14 | 15 | 16 | 17 | 18 => true
  | n => decide (19 < n)

theorem liveScript_live (k : Nat) : ScriptLive liveRegs liveFlags k (liveScript k) := by
  have h : ∀ k < 20, liveRegs k ⊆ [.r8, .r9, .r10, .r11] := by decide
  unfold ScriptLive
  match k with
  | 0 | 1 | 2 | 3 | 4 | 5 | 6 | 7 | 8 | 9 | 10 | 11 | 12 | 13 | 14 | 15 | 16 | 17 | 18 | 19 =>
    simp [liveRegs, liveFlags, liveScript, ScriptOp.uses, ScriptOp.sets, ScriptOp.usesFlags, ScriptOp.setsFlags,
      ScriptOp.leads]
  | n + 20 =>
    simp [liveRegs, liveScript, ScriptOp.uses, ScriptOp.usesFlags, ScriptOp.leads]

theorem liveScript_ok (k : Nat) :
    Scripted goodProg.sem goodProg.snipLive False liveSp liveView k (liveScript k) := by
  have tr0 : ∀ {t} (_ : t <+: [Ev.block 0, .push, .block 2, .block 3, .check]), goodProg.sem.trace 0 t := by
    intro t ht
    refine Small.starts (b' := 3) [goodProg.edges[1], goodProg.edges[3]] (by decide) (by decide) ?_
    rw [show goodProg.trace 0 [goodProg.edges[1], goodProg.edges[3]] =
      [Ev.block 0, .push, .block 2, .block 3, .check] by decide +kernel]
    exact ht
  have tr1 : ∀ {t} (_ : t <+: [Ev.push, .block 4, .check]), goodProg.sem.trace 1 t := by
    intro t ht
    refine Small.starts (b' := 4) [] (by decide) (by decide) ?_
    rw [show goodProg.trace 1 [] = [Ev.push, .block 4, .check] by decide +kernel]
    exact ht
  have tr2 : ∀ {t} (_ : t <+: [Ev.push, .block 5, .check]), goodProg.sem.trace 2 t := by
    intro t ht
    refine Small.starts (b' := 5) [] (by decide) (by decide) ?_
    rw [show goodProg.trace 2 [] = [Ev.push, .block 5, .check] by decide +kernel]
    exact ht
  have push : ∀ f b, f ∈ goodProg.code.funcs → (Place.blk b, PushKind.stack false 0 false) ∈ (goodProg.plan f).pushes →
      ∀ (r : W) (s : State), s.regs .rsp = r → goodProg.snipLive f .push (.blk b) (goodProg.pushLive f b) s r :=
    fun f b hf hm r s hr => Small.push_live goodProg_ok rfl hf hm hr
  have check : ∀ f b, f ∈ goodProg.code.funcs → (Place.blk b, PopKind.stack false) ∈ (goodProg.plan f).checks →
      ∀ (r : W) (s : State), s.regs .rsp = r → goodProg.snipLive f .check (.blk b) (goodProg.checkLive f b) s r :=
    fun f b hf hm r s hr => Small.check_live goodProg_ok rfl hf (goodProg_calls f hf) hm hr
  match k with
  | 0 => exact ⟨rfl, fun s => .block (a := base []) (tr0 (by decide)) (sameSlots_refl _ _)⟩
  | 1 => exact ⟨rfl, fun s s' e => .work (sameSlots_mem e)⟩
  | 2 =>
    refine ⟨⟨rfl, fun s => .work (sameSlots_refl _ _)⟩, rfl,
      fun s => .block (a := base [.block 0]) (b := 1) ?_ (sameSlots_refl _ _)⟩
    exact Small.starts (b' := 1) [goodProg.edges[0]] (by decide) (by decide) (by decide +kernel)
  | 3 => exact ⟨rfl, by decide, base [.block 0], [], .push, 2, nofun, rfl, rfl, tr0 (by decide),
      push 0 2 (by decide) (by decide +kernel) _⟩
  | 4 => exact ⟨rfl, fun s s' e => .block (a := base [.block 0, .push]) (tr0 (by decide)) (sameSlots_mem e)⟩
  | 5 => exact ⟨⟨rfl, fun s => .work (sameSlots_refl _ _)⟩, rfl, fun s => .work (sameSlots_refl _ _)⟩
  | 6 =>
    refine ⟨by decide, by decide, .inr ⟨by unfold GuardLike; decide, base [.block 0, .push, .block 2], [], 1, rfl, rfl, ?_⟩⟩
    exact Small.callsF (t := [.block 0, .push]) goodProg.edges[2] (by decide +kernel) (tr0 (by decide)) (by decide)
      (by decide) (Small.direct (by decide) (by decide) (by decide +kernel))
  | 7 => exact ⟨rfl, by decide, _, _, .push, 4, nofun, rfl, rfl, tr1 (by decide),
      push 1 4 (by decide) (by decide +kernel) _⟩
  | 8 =>
    have : ∀ s, Moves goodProg.sem False (liveView 8) s (liveView 9) s := fun s =>
      .block (a := ⟨1, [.push], 0x402000, 0x6ff8⟩) (tr1 (by decide)) (sameSlots_refl _ _)
    exact ⟨⟨rfl, this⟩, rfl, this⟩
  | 9 => exact ⟨rfl, by decide, _, _, .check, 4, nofun, rfl, rfl, tr1 (by decide),
      check 1 4 (by decide) (by decide +kernel) _⟩
  | 10 =>
    refine ⟨rfl, fun s s' e => .tail (a := ⟨1, [.push, .block 4, .check], 0x402000, 0x6ff8⟩)
      ⟨4, Small.ends [] (by decide) (by decide) (by decide) (by decide) (by decide +kernel)⟩ (.inl ?_) (sameSlots_mem e)⟩
    exact ⟨by decide, 4, Small.ends [] (by decide) (by decide) (by decide) (by decide) (by decide +kernel),
      goodProg.edges[6], by decide, Small.jumps (by decide) (by decide) (by decide) (by decide) (by decide +kernel)⟩
  | 11 => exact ⟨rfl, by decide, _, _, .push, 5, nofun, rfl, rfl, tr2 (by decide),
      push 2 5 (by decide) (by decide +kernel) _⟩
  | 12 =>
    have : ∀ s, Moves goodProg.sem False (liveView 12) s (liveView 13) s := fun s =>
      .block (a := ⟨2, [.push], 0x402000, 0x6ff8⟩) (tr2 (by decide)) (sameSlots_refl _ _)
    exact ⟨⟨rfl, this⟩, rfl, this⟩
  | 13 => exact ⟨rfl, by decide, _, _, .check, 5, nofun, rfl, rfl, tr2 (by decide),
      check 2 5 (by decide) (by decide +kernel) _⟩
  | 14 => exact ⟨by decide, fun s s' e => .ret (a := ⟨2, [.push, .block 5, .check], 0x402000, 0x6ff8⟩)
      ⟨5, Small.ends [] (by decide) (by decide) (by decide) (by decide) (by decide +kernel)⟩ (sameSlots_mem e)⟩
  | 15 => exact ⟨rfl, fun s => .block (a := base [.block 0, .push, .block 2]) (tr0 (by decide)) (sameSlots_refl _ _)⟩
  | 16 => exact ⟨rfl, by decide, base [.block 0, .push, .block 2, .block 3], [], .check, 3, nofun, rfl, rfl,
      tr0 (by decide), check 0 3 (by decide) (by decide +kernel) _⟩
  | 17 => exact ⟨by decide, fun s s' e => .ret (a := base [.block 0, .push, .block 2, .block 3, .check])
      ⟨3, Small.ends [goodProg.edges[1], goodProg.edges[3]] (by decide) (by decide) (by decide) (by decide)
        (by decide +kernel)⟩ (sameSlots_mem e)⟩
  | 18 => exact trivial
  | 19 => exact ⟨by decide, fun s s' e => .ret (a := base [.block 0, .block 1])
      ⟨1, Small.ends [goodProg.edges[0]] (by decide) (by decide) (by decide) (by decide) (by decide +kernel)⟩
      (sameSlots_mem e)⟩
  | n + 20 => exact trivial

theorem good_inReg {f : Func} (h : f ∈ [0, 1, 2]) : ¬ goodProg.sem.inReg f := by
  have hr : ∀ f ∈ [0, 1, 2], ¬ goodProg.sem.inReg f := by
    change ∀ f ∈ [0, 1, 2], ¬ (useRegFrame {} (some (goodProg.sums f)) = true)
    decide +kernel
  exact hr f h

theorem liveDead_mem {r : Reg} (h : r.name ∈ liveNames) : r ∈ [Reg.r8, .r9, .r10, .r11] := by
  revert h
  cases r <;> decide

/-- The hypotheses of C106 are met. -/
theorem C106_example (a b : W) :
    (scriptGuest liveScript).Refines (liveBlind liveRegs liveFlags) 0 (script0 a b).state := by
  have hF : (scriptGuest liveScript).Follows goodProg.sem (fun _ => .rax) goodProg.snipLive
      (goodProg.binary.Spoils liveJf goodProg.code fun _ => liveDead) (liveBlind liveRegs liveFlags) liveView False sigBase 0
      (script0 a b).state := by
    refine script_follows_live liveScript_ok rfl (script0_begins a b) (fun k x hx => good_inReg ?_) fun k c k' e => ?_
    · unfold liveView at hx
      split at hx <;> simp [upon, base] at hx <;>
        first | exact hx.elim | (rcases hx with rfl | rfl <;> simp) | (subst hx; simp)
    · have spo : ∀ {f ev b r}, goodProg.binary.Spoils liveJf goodProg.code (fun _ => liveDead) f ev (.blk b) r →
          r ∈ [Reg.r8, .r9, .r10, .r11] := by
        intro f ev b r h
        cases ev with
        | push => exact liveDead_mem h.2
        | block => exact False.elim h
        | check =>
          obtain ⟨_, d, e, h⟩ := h
          cases e
          exact liveDead_mem h
      unfold liveScript at e
      split at e <;> cases e
      all_goals
        refine ⟨by decide, by decide, fun a as ev h1 h2 => ⟨fun s b r _ h => spo h, ?_⟩⟩
        rintro rfl
        cases h1
        first | rfl | cases h2
  have := script_loses liveScript_live (k0 := 0) (s0 := (script0 a b).state)
  rw [scriptGuest_eq] at hF ⊢
  refine C106_light_partial (goodProg.binaryOk_live rfl fun _ => .rax) goodProg_ok.built goodProg_calls
    (fun k o e => ?_) hF this (script0_recorded a b) fun tr k s _ => ?_
  · cases e; exact (liveScript k).fair
  · have : (liveView k).length ≤ 2 := by
      unfold liveView
      split <;> simp [upon]
    unfold regionSize
    omega

theorem liveScript_runs : ∃ tr s, BareRun (scriptGuest liveScript) 0 (script0 0 0).state tr 18 s :=
  ⟨_, _, cast (by rw [show (bareRun liveScript 18 0 (script0 0 0).state).2.1 = 18 by decide +kernel])
    (bareRun_run liveScript 18 .start)⟩

/-! ## A register which is dead at the entry, but not at the push -/

/-- `f0` clears a register which is dead at its entry, and looks at it after the push. -/
def lateScript : Nat → ScriptOp
  | 0 => .set .r11 0 1
  | 1 => .snip (goodProg.pushLive 0 2) 2
  | 2 => .test .r11 3 4
  | _ => .halt

def lateView : Nat → List XAct
  | 0 => [base []]
  | 1 => [base [.block 0]]
  | 2 => [base [.block 0, .push]]
  | _ => [base [.block 0, .push, .block 2]]

/-- The registers are dead at the entry. -/
def lateRegs : Nat → List Reg
  | 0 => [.r8, .r9, .r10, .r11]
  | _ => [.r8, .r9, .r10]

theorem lateScript_live (k : Nat) : ScriptLive lateRegs (fun _ => true) k (lateScript k) := by
  unfold ScriptLive
  match k with
  | 0 | 1 | 2 | n + 3 =>
    simp [lateRegs, lateScript, ScriptOp.uses, ScriptOp.sets, ScriptOp.usesFlags, ScriptOp.setsFlags, ScriptOp.leads]

theorem lateScript_ok (k : Nat) :
    Scripted goodProg.sem goodProg.snipLive False (fun _ => 0x7000) lateView k (lateScript k) := by
  have tr0 : ∀ {t} (_ : t <+: [Ev.block 0, .push, .block 2, .block 3, .check]), goodProg.sem.trace 0 t := by
    intro t ht
    refine Small.starts (b' := 3) [goodProg.edges[1], goodProg.edges[3]] (by decide) (by decide) ?_
    rw [show goodProg.trace 0 [goodProg.edges[1], goodProg.edges[3]] =
      [Ev.block 0, .push, .block 2, .block 3, .check] by decide +kernel]
    exact ht
  match k with
  | 0 => exact ⟨rfl, fun s s' e => .block (a := base []) (tr0 (by decide)) (sameSlots_mem e)⟩
  | 1 => exact ⟨rfl, by decide, base [.block 0], [], .push, 2, nofun, rfl, rfl, tr0 (by decide), fun s hs =>
      Small.push_live goodProg_ok rfl (by decide) (by decide +kernel) hs⟩
  | 2 =>
    have : ∀ s, Moves goodProg.sem False (lateView 2) s (lateView 3) s := fun s =>
      .block (a := base [.block 0, .push]) (tr0 (by decide)) (sameSlots_refl _ _)
    exact ⟨⟨rfl, this⟩, rfl, this⟩
  | n + 3 => exact trivial

/-- The original finds the register clear. -/
theorem late_bare {s0 : State} {tr : List W} {k : Nat} {s : State} (h : BareRun (scriptGuest lateScript) 0 s0 tr k s) :
    k ≠ 4 ∧ (k = 0 ∨ s.regs .r11 = 0) := by
  induction h with
  | start => exact ⟨by decide, .inl rfl⟩
  | @step tr ls k k' s s' _ hs ih =>
    cases hs with
    | own hs =>
      have hs : scriptStep lateScript k s = some (_, k', s') := hs
      unfold scriptStep at hs
      match k with
      | 0 => cases hs; exact ⟨by decide, .inr (by simp [State.set])⟩
      | 1 => cases hs
      | 2 =>
        have h0 := ih.2.resolve_left (by decide)
        cases hs
        rw [if_pos h0]
        exact ⟨by decide, .inr h0⟩
      | n + 3 => cases hs
    | pass hx =>
      match k with
      | 1 => cases hx; exact ⟨by decide, .inr (ih.2.resolve_left (by decide))⟩
      | 0 | 2 | n + 3 => cases hx

def late1 : LogState := (script0 0 0).set .r11 0

def late2 : LogState := after (goodProg.pushLive 0 2) (goodProg.pushLive 0 2).length (goodProg.pushLive 0 2) late1

/-- The instrumented program finds the remains of the push. -/
theorem late_armed : ArmedRun (scriptGuest lateScript) 0 (script0 0 0).state [0, late2.reg .r11] (.run 4 late2.state) := by
  have e1 := after_crun (w := goodProg.pushLive 0 2) (k := goodProg.pushLive 0 2) (k' := [])
    (n := (goodProg.pushLive 0 2).length) (c := late1) (by decide +kernel)
  have r1 : ArmedRun (scriptGuest lateScript) 0 (script0 0 0).state [0] (.run 1 late1.state) :=
    .step .start (.own (by
      show scriptStep lateScript 0 (script0 0 0).state = _
      unfold late1
      rw [LogState.state_set]; rfl))
  have r2 := r1.step (.snip (k' := 2) rfl (crun_exits e1))
  have h : late2.reg .r11 ≠ 0 := by decide +kernel
  exact r2.step (.own (by
    show scriptStep lateScript 2 late2.state = some (late2.reg .r11, 4, late2.state)
    show some (late2.reg .r11, (if late2.reg .r11 = 0 then 3 else 4), late2.state) = _
    rw [if_neg h]))

/-- **C107 fails**: with `--optimize_regs` a push at the beginning of the slow path uses registers which are
dead at the entry of the function, and the program finds something else in them than it has put there. -/
theorem C107_refuted : ∃ B co info R T bf plan dead frame D view g s0, ∃ code : Nat → Option (Action Nat W),
    ∃ site : Nat → Option (Code × Nat),
    BinaryOk B {} { optimizeRegs := true } co info R bf dead frame ∧ Built {} [] co info R T bf plan ∧
    (∀ f ∈ co.funcs, NoCallAtCheck {} co (bf f)) ∧ (∀ k o, code k = some o → o.Fair) ∧ DeadAtEntry D view dead ∧
    (guestOf code site).Follows (semOf co info plan (inRegOf {} T) (staysOf bf)) frame
      (B.SnippetAt { optimizeRegs := true } (fun f => (T f).jit (dead f)) co plan)
      (B.EntrySpoils { optimizeRegs := true } dead co) D view False g 0 s0 ∧
    Loses code site D g 0 s0 ∧ Recorded g [] s0 ∧
    (∀ tr k s, BareRun (guestOf code site) 0 s0 tr k s → 40 + 8 * (view k).length ≤ regionSize) ∧
    ∃ tr k t, ArmedRun (guestOf code site) 0 s0 tr (.run k t) ∧ ∀ tr s, ¬ BareRun (guestOf code site) 0 s0 tr k s := by
  refine ⟨goodProg.binary, goodProg.code, goodProg.info, fun _ => {}, goodProg.sums, goodProg.bfunc, goodProg.plan,
    fun _ => liveDead, fun _ => .rax, liveBlind lateRegs fun _ => true, lateView, sigBase, (script0 0 0).state,
    fun k => some (lateScript k).act, scriptSite lateScript, goodProg.binaryOk_live rfl _, goodProg_ok.built,
    goodProg_calls, fun k o e => by cases e; exact (lateScript k).fair, ?_, ?_, script_loses lateScript_live,
    script0_recorded 0 0, fun tr k s _ => ?_, ?_⟩
  · intro k a as e hd r hr
    match k with
    | 0 => exact liveDead_mem hr
    | 1 | 2 | n + 3 => cases e; cases hd
  · rw [← scriptGuest_eq]
    refine script_follows_live lateScript_ok rfl (script0_begins 0 0) (fun k x hx => good_inReg ?_) fun k c k' e => ?_
    · unfold lateView at hx
      split at hx <;> (cases List.mem_singleton.1 hx; decide)
    · unfold lateScript at e
      split at e <;> cases e
      refine ⟨by decide, by decide, fun a as ev h1 h2 => ⟨fun s b r hc h => ?_, fun _ => rfl⟩⟩
      cases h1
      cases ev with
      | push =>
        obtain ⟨q, hq, _⟩ := hc
        have : ∀ x ∈ (goodProg.plan 0).pushes, x.1 ≠ .blk 0 := by decide +kernel
        exact absurd (congrArg Place.blk h.1) (this _ hq)
      | _ => cases h2
  · have : (lateView k).length = 1 := by
      unfold lateView
      split <;> rfl
    rw [this]
    decide
  · rw [← scriptGuest_eq]
    exact ⟨_, _, _, late_armed, fun _ _ h => (late_bare h).1 rfl⟩

/-! ## A push at the entry -/

/-- A function of one block. -/
def loneProg : Small where
  blocks := [[0]]
  exits := [[0]]
  edges := [retEdge 0 0]
  danger := [0]

theorem loneProg_ok : loneProg.Ok where
  sums := by decide +kernel
  plans := by decide +kernel
  addr := by decide +kernel
  oneCall := by decide +kernel
  entry := by decide +kernel
  closed := by decide +kernel
  ret := by decide +kernel
  exits := by decide +kernel
  handler := by decide +kernel
  nodup := by decide +kernel
  after := by decide +kernel
  resolved := by decide +kernel
  exitIn := by decide +kernel
  nodupEdges := by decide +kernel
  lone := by decide +kernel
  callOut := by decide +kernel

theorem loneProg_calls : ∀ f ∈ loneProg.code.funcs, NoCallAtCheck {} loneProg.code (loneProg.bfunc f) := by
  have h : ∀ f ∈ loneProg.code.funcs, ∀ r ∈ checkFastPath false (loneProg.bfunc f).cfg,
      ∀ e ∈ loneProg.edges, e.src ∈ r.2 → e.type ≠ .call := by decide +kernel
  exact fun f hf => Small.noCallAtCheck (h f hf)

/-- It uses a register which is dead at the entry. -/
def loneScript : Nat → ScriptOp
  | 0 => .snip (loneProg.pushLive 0 0) 1
  | 1 => .set .r11 7 2
  | 2 => .test .r11 3 3
  | 3 => .snip (loneProg.checkLive 0 0) 4
  | 4 => .up 5
  | _ => .halt

def loneSp : Nat → W
  | 0 | 1 | 2 | 3 | 4 => 0x7000
  | _ => 0x7008

def loneView : Nat → List XAct
  | 0 => [base []]
  | 1 => [base [.push]]
  | 2 | 3 => [base [.push, .block 0]]
  | 4 => [base [.push, .block 0, .check]]
  | _ => []

def loneRegs : Nat → List Reg
  | 2 | 3 => [.r8, .r9, .r10]
  | _ => [.r8, .r9, .r10, .r11]

theorem loneScript_live (k : Nat) : ScriptLive loneRegs (fun _ => true) k (loneScript k) := by
  unfold ScriptLive
  match k with
  | 0 | 1 | 2 | 3 | 4 | n + 5 =>
    simp [loneRegs, loneScript, ScriptOp.uses, ScriptOp.sets, ScriptOp.usesFlags, ScriptOp.setsFlags, ScriptOp.leads]

theorem loneScript_ok (k : Nat) :
    Scripted loneProg.sem loneProg.snipLive False loneSp loneView k (loneScript k) := by
  have tr0 : ∀ {t} (_ : t <+: [Ev.push, .block 0, .check]), loneProg.sem.trace 0 t := by
    intro t ht
    refine Small.starts (b' := 0) [] (by decide) (by decide) ?_
    rw [show loneProg.trace 0 [] = [Ev.push, .block 0, .check] by decide +kernel]
    exact ht
  match k with
  | 0 => exact ⟨rfl, by decide, base [], [], .push, 0, nofun, rfl, rfl, tr0 (by decide), fun s hs =>
      Small.push_live loneProg_ok rfl (by decide) (by decide +kernel) hs⟩
  | 1 => exact ⟨rfl, fun s s' e => .block (a := base [.push]) (tr0 (by decide)) (sameSlots_mem e)⟩
  | 2 => exact ⟨⟨rfl, fun s => .work (sameSlots_refl _ _)⟩, rfl, fun s => .work (sameSlots_refl _ _)⟩
  | 3 => exact ⟨rfl, by decide, base [.push, .block 0], [], .check, 0, nofun, rfl, rfl, tr0 (by decide), fun s hs =>
      Small.check_live loneProg_ok rfl (by decide) (loneProg_calls 0 (by decide)) (by decide +kernel) hs⟩
  | 4 => exact ⟨by decide, fun s s' e => .ret (a := base [.push, .block 0, .check])
      ⟨0, Small.ends [] (by decide) (by decide) (by decide) (by decide) (by decide +kernel)⟩ (sameSlots_mem e)⟩
  | n + 5 => exact trivial

/-- The hypotheses of C107 are met. -/
theorem C107_example (a b : W) :
    (scriptGuest loneScript).Refines (liveBlind loneRegs fun _ => true) 0 (script0 a b).state := by
  have hF : (scriptGuest loneScript).Follows loneProg.sem (fun _ => .rax) loneProg.snipLive
      (loneProg.binary.EntrySpoils liveJf (fun _ => liveDead) loneProg.code) (liveBlind loneRegs fun _ => true) loneView
      False sigBase 0 (script0 a b).state := by
    refine script_follows_live loneScript_ok rfl (script0_begins a b) (fun k x hx => ?_) fun k c k' e => ?_
    · have hr : ¬ loneProg.sem.inReg 0 := by
        change ¬ (useRegFrame {} (some (loneProg.sums 0)) = true)
        decide +kernel
      unfold loneView at hx
      split at hx <;> first | cases hx; done | (cases List.mem_singleton.1 hx; exact hr)
    · unfold loneScript at e
      split at e <;> cases e
      · refine ⟨by decide, by decide, fun a as ev h1 h2 => ⟨fun s b r _ h => ?_, fun _ => rfl⟩⟩
        cases h1
        cases ev with
        | push => exact liveDead_mem h.2.2
        | _ => cases h2
      · refine ⟨by decide, by decide, fun a as ev h1 h2 => ⟨fun s b r _ h => ?_, fun _ => rfl⟩⟩
        cases h1
        cases ev with
        | check =>
          obtain ⟨_, d, e, h⟩ := h
          cases e
          exact liveDead_mem h
        | _ => cases h2
  have := script_loses loneScript_live (k0 := 0) (s0 := (script0 a b).state)
  rw [scriptGuest_eq] at hF ⊢
  refine C107_optimized_partial (loneProg.binaryOk_live rfl fun _ => .rax) loneProg_ok.built loneProg_calls
    (fun _ => ?_) (fun k o e => ?_) hF this (script0_recorded a b) fun tr k s _ => ?_
  · have : ∀ f ∈ loneProg.code.funcs, ∀ x ∈ (loneProg.plan f).pushes, x.1 = .blk (loneProg.code.entry f) := by
      decide +kernel
    intro f hf pl k hm
    have : pl = _ := this f hf _ hm
    rw [this]
    exact ⟨nofun, fun b e => by cases e; rfl⟩
  · cases e; exact (loneScript k).fair
  · have : (loneView k).length ≤ 1 := by
      unfold loneView
      split <;> simp
    unfold regionSize
    omega

end Verif
