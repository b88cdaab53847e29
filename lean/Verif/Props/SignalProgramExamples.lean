import Verif.Props.SignalProgram
import Verif.Props.SignalEmbed
import Verif.Props.SignalExamples
import Verif.Props.UnwindMachineExamples
import Verif.Props.OpenJumpsExamples
import Verif.Props.SlipExamples

/-!
# C100: example programs and attacks
-/

namespace Verif

/-! ## Executions -/

/-- On this way there was an activation with this return address. -/
def XSeen (ps : List XProc) (v : W) : Prop := ∃ s acts, .run s acts ∈ ps ∧ ∃ x ∈ acts, v = x.ra

theorem XLost.seen {m : ProgSem} {ps : List XProc} {v : W} (h : XLost m ps v) : XSeen ps v := by
  induction ps with
  | nil => cases h
  | cons q ps ih =>
    cases ps with
    | nil => cases h
    | cons p ps =>
      rcases h with ⟨up, acts, s, s', rfl, rfl, x, hx, _, rfl⟩ | h
      · exact ⟨s, up ++ acts, by simp, x, List.mem_append_left _ hx, rfl⟩
      · obtain ⟨s, acts, h1, h2⟩ := ih h
        exact ⟨s, acts, List.mem_cons_of_mem _ h1, h2⟩

/-- An execution on which all return addresses are in `R`. -/
def TrailIn (step : XProc → XProc → Prop) (p : XProc) (R : List W) (q : XProc) : Prop :=
  ∃ ps, Trail step p (q :: ps) ∧ ∀ v, XSeen (q :: ps) v → v ∈ R

theorem TrailIn.step {step : XProc → XProc → Prop} {p q : XProc} {R : List W} (h : TrailIn step p R q) {s : State}
    {acts : List XAct} (hs : step q (.run s acts)) (hm : ∀ x ∈ acts, x.ra ∈ R) : TrailIn step p R (.run s acts) := by
  obtain ⟨ps, h1, h2⟩ := h
  refine ⟨_, h1.step hs, ?_⟩
  rintro v ⟨s', acts', hi, x, hx, rfl⟩
  rcases List.mem_cons.1 hi with e | hi
  · cases e; exact hm x hx
  · exact h2 _ ⟨s', acts', hi, x, hx, rfl⟩

theorem TrailIn.start {step : XProc → XProc → Prop} {f : Func} {pos : W} {s : State} {R : List W}
    (h : s.mem.read64 pos ∈ R) : TrailIn step (.start f pos s) R (.start f pos s) := by
  refine ⟨[], .start, ?_⟩
  rintro v ⟨s', acts', hi, x, hx, rfl⟩
  cases List.mem_singleton.1 hi
  cases List.mem_singleton.1 hx
  exact h

theorem TrailIn.steps {step : XProc → XProc → Prop} {p q : XProc} {R : List W} (h : TrailIn step p R q) :
    Steps step p q := by
  obtain ⟨ps, h1, _⟩ := h
  exact h1.steps

theorem EStep.handling {m : ProgSem} {frame : Func → Reg} {snip : Func → Ev → Code → State → W → Prop} {g : W}
    (H : Func → List Ev → Func → Prop) {p q : XProc} (h : EStep m frame snip g p q) :
    EStep (m.handling H) frame snip g p q := by
  cases h with
  | work h1 h2 => exact .work ⟨h1.gs, h1.region, h1.frame⟩ h2
  | block h => exact .block h
  | call p h1 h2 h3 => exact .call p (.inl h1) ⟨h2.gs, h2.region, h2.frame⟩ h3
  | snippet h1 h2 h3 h4 h5 h6 => exact .snippet h1 h2 h3 h4 h5 h6
  | accept h1 h2 h3 h4 h5 => exact .accept h1 h2 h3 h4 h5
  | trap h1 h2 h3 h4 h5 => exact .trap h1 h2 h3 h4 h5
  | ret h1 h2 => exact .ret h1 h2
  | hijack h1 h2 h3 => exact .hijack h1 h2 h3
  | tail h1 h2 => exact .tail h1 h2

/-- The steps of a small program with exceptions and signals, where handlers of the second kind are started as
`H` says. -/
abbrev Small.signals (p : Small) (frame : Func → Reg) (H : Func → List Ev → Func → Prop) (own : W → Prop)
    (depth : Nat) : XProc → XProc → Prop :=
  Disturbed (Unwinding (EStep (p.excSem.handling H) frame p.snip 0x100000) 0x100000) (p.excSem.handling H) p.snip
    (Handled BeforePointer own 0x100000 depth) 0x100000

theorem Small.signals_of {p : Small} {frame : Func → Reg} {H : Func → List Ev → Func → Prop} {own : W → Prop}
    {depth : Nat} {a b : XProc} (h : p.steps frame a b) : p.signals frame H own depth a b := by
  cases h with
  | step h => exact .step (.step (h.handling H))
  | unwind h1 h2 h3 => exact .step (.unwind h1 h2 h3)

/-! ## A function and a handler -/

/-- `f0` does nothing; `f1` writes to an unknown address. -/
def sigProg : Small where
  blocks := [[0], [1]]
  exits := [[0], [1]]
  edges := [{ id := 0, src := 0, trg := 0, type := .ret, sink := true, interproc := true },
    { id := 1, src := 1, trg := 1, type := .ret, sink := true, interproc := true }]
  danger := [1]

theorem sigProg_ok : sigProg.Ok where
  sums := by decide +kernel
  plans := by decide +kernel
  addr := by decide +kernel
  oneCall := by decide +kernel
  entry := by decide +kernel
  closed := by decide +kernel
  ret := by decide +kernel
  exits := by decide +kernel
  handler := by decide +kernel
  nodup := by decide +kernel
  after := by decide +kernel
  resolved := by decide +kernel
  exitIn := by decide +kernel
  nodupEdges := by decide +kernel
  lone := by decide +kernel
  callOut := by decide +kernel

theorem sigProg_noCalls : sigProg.NoCalls := sigProg_ok.noCalls (by decide +kernel) (by decide +kernel)

theorem sigProg_reg : ¬ sigProg.excSem.inReg 0 ∧ ¬ sigProg.excSem.inReg 1 := by
  change ¬ (useRegFrame {} (some (sigProg.sums 0)) = true) ∧ ¬ (useRegFrame {} (some (sigProg.sums 1)) = true)
  decide +kernel

theorem sigProg_cleanup : ∀ f ∈ sigProg.code.funcs, ∀ L,
    doLowering {} sigProg.code f (some (sigProg.sums f)) = some (some L) → CleanupOnly sigProg.code sigProg.sums f := by
  intro f _ _ _ b _ e he _ hc
  have h : ∀ e ∈ sigProg.edges, e.type ≠ .catch := by decide
  exact absurd hc (h e (Small.mem_targets.mp he).1)

theorem sig0_block : sigProg.excSem.trace 0 ([] ++ [.block 0]) :=
  Small.startsX (b' := 0) [] (by decide) (by decide) (by decide +kernel)

theorem sig0_ends : sigProg.excSem.complete 0 [.block 0] :=
  Small.endsX (b := 0) [] (by decide) (by decide) (by decide) (by decide) (by decide +kernel)

theorem sig1_push : sigProg.excSem.trace 1 ([] ++ [.push]) :=
  Small.startsX (b' := 1) [] (by decide) (by decide) (by decide +kernel)

theorem sig1_block : sigProg.excSem.trace 1 ([.push] ++ [.block 1]) :=
  Small.startsX (b' := 1) [] (by decide) (by decide) (by decide +kernel)

theorem sig1_check : sigProg.excSem.trace 1 ([.push, .block 1] ++ [.check]) :=
  Small.startsX (b' := 1) [] (by decide) (by decide) (by decide +kernel)

theorem sig1_ends : sigProg.excSem.complete 1 [.push, .block 1, .check] :=
  Small.endsX (b := 1) [] (by decide) (by decide) (by decide) (by decide) (by decide +kernel)

/-- The handler `f1` may be started anywhere. -/
def Anywhere (_ : Func) (_ : List Ev) (h : Func) : Prop := h = 1

section
variable {frame : Func → Reg} {own : W → Prop} {depth : Nat}

/-- A signal: the handler overwrites the return address at 0x7000 and returns. -/
theorem sig_handler {q : XProc} {s : State} {l : List W} {r u w : W} (n : Snap s l r u w) (hl : l.length < 99)
    {f : Func} (hf : ¬ sigProg.excSem.inReg f) {t : List Ev} {ra : W} (hra : ra ∈ [(0x401000 : W), 0x401234])
    (h : TrailIn (sigProg.signals frame Anywhere own depth) q [0x401000, 0x401234] (.run s [⟨f, t, ra, 0x7000⟩]))
    (v : W) : ∃ s', Snap s' l 0x7000 v 0x401234 ∧
      TrailIn (sigProg.signals frame Anywhere own depth) q [0x401000, 0x401234] (.run s' [⟨f, t, ra, 0x7000⟩]) := by
  have both : ∀ {t1 : List Ev}, ∀ x ∈ [(⟨1, t1, 0x401234, 0x6ff8⟩ : XAct), ⟨f, t, ra, 0x7000⟩],
      x.ra ∈ [(0x401000 : W), 0x401234] := by
    intro t1 x hx
    simp only [List.mem_cons, List.not_mem_nil, or_false] at hx
    rcases hx with rfl | rfl
    · show (0x401234 : W) ∈ _
      simp
    · exact hra
  have n1 := n.called 0x401234
  have h1 := h.step (acts := [⟨1, [], 0x401234, 0x6ff8⟩, ⟨f, t, ra, 0x7000⟩]) (s := called s 0x6ff8 0x401234) (by
    have := Disturbed.step (m := sigProg.excSem.handling Anywhere) (snip := sigProg.snip)
      (sig := Handled BeforePointer own 0x100000 depth) (g := 0x100000)
      (Unwinding.step (g := 0x100000) (EStep.call (m := sigProg.excSem.handling Anywhere) (frame := frame)
        (snip := sigProg.snip) (g := 0x100000) (s := s) (s' := called s 0x6ff8 0x401234)
        (a := ⟨f, t, ra, 0x7000⟩) (as := []) (h := 1) 0x6ff8 (Or.inr rfl)
        (called_spares (low_sep (by decide)) hf) (by
          intro x hx
          rw [List.mem_singleton.mp hx]
          exact called_hi _ _)))
    rwa [n1.lo] at this) both
  obtain ⟨s2, t2, k2, q2, p2⟩ := Small.step_push (frame := frame) (a := ⟨1, [], 0x401234, 0x6ff8⟩)
    (as := [⟨f, t, ra, 0x7000⟩]) sigProg_ok rfl n1.recorded (by omega) sig1_push
    sigProg_reg.2 (b := 1) (k := .stack false 0 false) (by decide +kernel) n1.rsp (clear_two n1.rsp)
  have h2 := h1.step (Small.signals_of t2) both
  change Recorded _ ((called s 0x6ff8 0x401234).mem.read64 0x6ff8 :: l) _ at k2
  rw [n1.lo] at k2
  have n2 : Snap s2 (0x401234 :: l) 0x6ff8 u 0x401234 := ⟨k2, p2.trans n1.rsp,
    (q2 ⟨f, t, ra, 0x7000⟩ (by simp)).trans n1.hi, (q2 ⟨1, [], 0x401234, 0x6ff8⟩ (by simp)).trans n1.lo⟩
  have h3 := h2.step (Small.signals_of (.step (.block sig1_block))) both
  have h4 := h3.step (Small.signals_of (.step (.work (s' := poked s2 0x7000 v) (poked_spares (low_sep (by decide)))
    (.inl (Small.dangerX (t := [.push]) sig1_block (by decide)))))) both
  have n4 := n2.poke v
  have c5 := Small.steps_check (frame := frame) (a := ⟨1, [.push, .block 1], 0x401234, 0x6ff8⟩)
    (as := [⟨f, t, ra, 0x7000⟩]) sigProg_ok rfl n4.recorded (by simp; omega)
    (sigProg_noCalls.calls _ (by decide)) sig1_check sigProg_reg.2 (b := 1) (k := .stack false)
    (by decide +kernel) n4.rsp (clear_two n4.rsp)
  rw [n4.lo, show scan 0x401234 (0x401234 :: l) = some 0 by simp [scan]] at c5
  obtain ⟨s5, t5, q5, k5, p5⟩ := c5.2 rfl (by simp)
  have h5 := h4.step (Small.signals_of t5) both
  have lo5 : s5.mem.read64 0x6ff8 = 0x401234 :=
    (q5 ⟨1, [.push, .block 1], 0x401234, 0x6ff8⟩ (by simp)).trans n4.lo
  have h6 := h5.step (acts := [⟨f, t, ra, 0x7000⟩]) (s := s5)
    (Small.signals_of (.step (.ret sig1_ends lo5))) (by
      intro x hx
      rw [List.mem_singleton.1 hx]
      exact hra)
  have n6 : Snap s5 l 0x6ff8 v 0x401234 := ⟨k5, p5.trans n4.rsp,
    (q5 ⟨f, t, ra, 0x7000⟩ (by simp)).trans n4.hi, lo5⟩
  have h7 := h6.step (acts := [⟨f, t, ra, 0x7000⟩]) (s := unwound s5)
    (Small.signals_of (.step (.work (s' := unwound s5) ⟨rfl, fun _ _ => rfl,
      fun h => absurd h hf⟩ (.inr fun _ _ => rfl)))) (by
      intro x hx
      rw [List.mem_singleton.1 hx]
      exact hra)
  exact ⟨_, n6.unwound, h7⟩

theorem sig_start (f : Func) : XProc.start f 0x7000 (sampleState 0x401000 []) =
    .run (sampleState 0x401000 []) [⟨f, [], 0x401000, 0x7000⟩] := by
  rw [XProc.start, show (sampleState 0x401000 []).mem.read64 0x7000 = 0x401000 by decide]

theorem sig_snap : Snap (sampleState 0x401000 []) [] 0x7000 0x401000 ((sampleState 0x401000 []).mem.read64 0x6ff8) :=
  ⟨sample_recorded, by decide, by decide, rfl⟩

/-- **C100: functions which are considered safe are not.** Under the very conditions of `C100_signals_partial`
but `HandlersAt`: a function which overwrites nothing, and is not instrumented for this reason, is interrupted by
a handler which overwrites its return address, and returns to any address unchecked. -/
theorem C100_refuted_safe : ∃ B co info R T bf plan f h,
    (∀ frame, BinaryOk B {} {} co info R bf (fun _ => {}) frame) ∧
    Built {} [] co info R T bf plan ∧ (∀ f ∈ co.funcs, CallsCovered T f) ∧
    (∀ f ∈ co.funcs, NoCallAtCheck {} co (bf f)) ∧ (∀ f ∈ co.funcs, TailsOk co T f) ∧
    (∀ f ∈ co.funcs, LeftOk [] co T bf f) ∧ (∀ f ∈ co.funcs, HandlersOk co (bf f) f) ∧
    (∀ f ∈ co.funcs, ∀ L, doLowering {} co f (some (T f)) = some (some L) → CleanupOnly co T f) ∧
    f ∈ co.funcs ∧ h ∈ co.funcs ∧ (T f).writes = false ∧ ∃ s0, Recorded 0x100000 [] s0 ∧
    ∀ frame own depth v, v ≠ s0.mem.read64 0x7000 →
      Steps (Disturbed
        (Unwinding (EStep ((semOn Flow co plan info (inRegOf {} T) (staysOf bf)).handling fun _ _ h' => h' = h) frame
          (B.Snippet {} (fun f => (T f).jit {}) co plan) 0x100000) 0x100000)
        ((semOn Flow co plan info (inRegOf {} T) (staysOf bf)).handling fun _ _ h' => h' = h)
        (B.Snippet {} (fun f => (T f).jit {}) co plan) (Handled BeforePointer own 0x100000 depth) 0x100000)
        (.start f 0x7000 s0) (.hijacked v) := by
  refine ⟨_, _, _, _, _, _, _, 0, 1, fun frame => sigProg.binaryOk rfl frame, sigProg_ok.built,
    sigProg_noCalls.covered, sigProg_noCalls.calls, sigProg_noCalls.tails, sigProg_noCalls.left,
    sigProg_ok.handlers, sigProg_cleanup, by decide, by decide, by decide +kernel, sampleState 0x401000 [],
    sample_recorded, fun frame own depth v hv => ?_⟩
  rw [show (sampleState 0x401000 []).mem.read64 0x7000 = 0x401000 by decide] at hv
  have h0 : TrailIn (sigProg.signals frame Anywhere own depth) (.start 0 0x7000 (sampleState 0x401000 []))
    [0x401000, 0x401234] _ := .start (by decide)
  rw [sig_start] at h0 ⊢
  have h1 := h0.step (Small.signals_of (.step (.block sig0_block))) (by
    intro x hx
    rw [List.mem_singleton.1 hx]
    simp)
  obtain ⟨s2, n2, h2⟩ := sig_handler sig_snap (by decide) sigProg_reg.1 (by decide) h1 v
  have := EStep.hijack (m := sigProg.excSem) (frame := frame) (snip := sigProg.snip) (g := 0x100000) (s := s2)
    (a := ⟨0, [] ++ [.block 0], 0x401000, 0x7000⟩) (as := []) sig0_ends (Small.mayReturn (by decide))
    (by rw [n2.hi]; exact hv)
  rw [n2.hi] at this
  exact h2.steps.step (Small.signals_of (.step this))

/-- **C100: the return address is recorded too late.** Under the very conditions of `C100_signals_partial` but
`HandlersAt`: a handler is started before the push of a function and overwrites its return address; what it has
written is recorded, and the check accepts it, although no call was ever made from there. -/
theorem C100_refuted_early : ∃ B co info R T bf plan f h,
    (∀ frame, BinaryOk B {} {} co info R bf (fun _ => {}) frame) ∧
    Built {} [] co info R T bf plan ∧ (∀ f ∈ co.funcs, CallsCovered T f) ∧
    (∀ f ∈ co.funcs, NoCallAtCheck {} co (bf f)) ∧ (∀ f ∈ co.funcs, TailsOk co T f) ∧
    (∀ f ∈ co.funcs, LeftOk [] co T bf f) ∧ (∀ f ∈ co.funcs, HandlersOk co (bf f) f) ∧
    (∀ f ∈ co.funcs, ∀ L, doLowering {} co f (some (T f)) = some (some L) → CleanupOnly co T f) ∧
    f ∈ co.funcs ∧ h ∈ co.funcs ∧ (T f).writes = true ∧ ∃ s0, Recorded 0x100000 [] s0 ∧
    ∀ frame own depth, ∃ l : List W, ∀ v, v ∉ l → ∃ s acts ps,
      Trail (Disturbed
        (Unwinding (EStep ((semOn Flow co plan info (inRegOf {} T) (staysOf bf)).handling fun _ _ h' => h' = h) frame
          (B.Snippet {} (fun f => (T f).jit {}) co plan) 0x100000) 0x100000)
        ((semOn Flow co plan info (inRegOf {} T) (staysOf bf)).handling fun _ _ h' => h' = h)
        (B.Snippet {} (fun f => (T f).jit {}) co plan) (Handled BeforePointer own 0x100000 depth) 0x100000)
        (.start f 0x7000 s0) (.run s acts :: ps) ∧
      Disturbed
        (Unwinding (EStep ((semOn Flow co plan info (inRegOf {} T) (staysOf bf)).handling fun _ _ h' => h' = h) frame
          (B.Snippet {} (fun f => (T f).jit {}) co plan) 0x100000) 0x100000)
        ((semOn Flow co plan info (inRegOf {} T) (staysOf bf)).handling fun _ _ h' => h' = h)
        (B.Snippet {} (fun f => (T f).jit {}) co plan) (Handled BeforePointer own 0x100000 depth) 0x100000
        (.run s acts) (.diverted v) ∧ ¬ XSeen (.run s acts :: ps) v := by
  refine ⟨_, _, _, _, _, _, _, 1, 1, fun frame => sigProg.binaryOk rfl frame, sigProg_ok.built,
    sigProg_noCalls.covered, sigProg_noCalls.calls, sigProg_noCalls.tails, sigProg_noCalls.left,
    sigProg_ok.handlers, sigProg_cleanup, by decide, by decide, by decide +kernel, sampleState 0x401000 [],
    sample_recorded, fun frame own depth => ⟨[0x401000, 0x401234], fun v hv => ?_⟩⟩
  have one : ∀ {t : List Ev}, ∀ x ∈ [(⟨1, t, 0x401000, 0x7000⟩ : XAct)], x.ra ∈ [(0x401000 : W), 0x401234] := by
    intro t x hx
    rw [List.mem_singleton.1 hx]
    simp
  have h0 : TrailIn (sigProg.signals frame Anywhere own depth) (.start 1 0x7000 (sampleState 0x401000 []))
    [0x401000, 0x401234] _ := .start (by decide)
  rw [sig_start] at h0 ⊢
  obtain ⟨s1, n1, h1⟩ := sig_handler sig_snap (by decide) sigProg_reg.2 (by decide) h0 v
  obtain ⟨s2, t2, k2, q2, p2⟩ := Small.step_push (frame := frame) (a := ⟨1, [], 0x401000, 0x7000⟩)
    (as := []) sigProg_ok rfl n1.recorded (by decide) sig1_push
    sigProg_reg.2 (b := 1) (k := .stack false 0 false) (by decide +kernel) n1.rsp (clear_one n1.rsp)
  have h2 := h1.step (Small.signals_of t2) one
  change Recorded _ [s1.mem.read64 0x7000] _ at k2
  rw [n1.hi] at k2
  have n2 : Snap s2 [v] 0x7000 v (s2.mem.read64 0x6ff8) := ⟨k2, p2.trans n1.rsp,
    (q2 ⟨1, [], 0x401000, 0x7000⟩ (by simp)).trans n1.hi, rfl⟩
  have h3 := h2.step (Small.signals_of (.step (.block sig1_block))) one
  have c4 := Small.steps_check (frame := frame) (a := ⟨1, [.push, .block 1], 0x401000, 0x7000⟩)
    (as := []) sigProg_ok rfl n2.recorded (by simp)
    (sigProg_noCalls.calls _ (by decide)) sig1_check sigProg_reg.2 (b := 1) (k := .stack false)
    (by decide +kernel) n2.rsp (clear_one n2.rsp)
  rw [n2.hi, show scan v [v] = some 0 by simp [scan]] at c4
  obtain ⟨ps, h5, h6⟩ := h3
  exact ⟨_, _, ps, h5, Small.signals_of (c4.1 fun e => hv (by simp [e])), fun h => hv (h6 v h)⟩

end

/-! ## A function with a frame register -/

/-- The function of `slipProg` with blocks as in `Small.binary`, of which nothing is known but that it does not
use r12. -/
def keepRegs : RegFacts where
  unusedRegs := ["x86_64::r12"]

def keepSums : Sums := (analyse slipProg.code slipProg.info fun _ => keepRegs).getD fun _ => {}

def keepPlan (f : Func) : Plan :=
  ((instrumentFunction {} [] slipProg.code (fun _ => some (keepSums f, [])) (slipProg.bfunc f) {}).map
    Prod.fst).getD .skipped

theorem keep_built : Built {} [] slipProg.code slipProg.info (fun _ => keepRegs) keepSums slipProg.bfunc
    keepPlan where
  code := slipProg_ok.code
  sums := by
    have h : (analyse slipProg.code slipProg.info fun _ => keepRegs).isSome = true := by decide +kernel
    unfold keepSums
    cases ha : analyse slipProg.code slipProg.info fun _ => keepRegs with
    | none => rw [ha] at h; cases h
    | some T => rfl
  light := rfl
  asserts := rfl
  func := slipProg_ok.func
  view := slipProg_ok.view
  left f hf h := by
    have : ∀ f ∈ slipProg.code.funcs, ¬ ((slipProg.bfunc f).noReturn = true ∨
      (slipProg.bfunc f).region ≠ ".text") := by decide +kernel
    exact absurd h (this f hf)
  plans f hf _ _ := by
    have h : ∀ f ∈ slipProg.code.funcs, (instrumentFunction {} [] slipProg.code
      (fun _ => some (keepSums f, [])) (slipProg.bfunc f) {}).isSome = true := by decide +kernel
    refine ⟨[], fun _ => some (keepSums f, []), {}, ?_⟩
    have := h f hf
    cases hr : instrumentFunction {} [] slipProg.code (fun _ => some (keepSums f, [])) (slipProg.bfunc f) {} with
    | none => rw [hr] at this; cases this
    | some r => exact ⟨r.2, rfl, by simp [keepPlan, hr]⟩

theorem keep_binaryOk : BinaryOk slipProg.binary {} {} slipProg.code slipProg.info (fun _ => keepRegs)
    slipProg.bfunc (fun _ => {}) fun _ => .r12 :=
  { slipProg.binaryOk rfl fun _ => .r12 with
    frame := fun _ _ _ => ⟨rfl, by decide⟩
    entryScan := fun _ _ _ _ => nofun
    fixedScan := fun _ _ _ _ => nofun
    exitScan := fun _ _ _ _ => nofun }

theorem keep_covered : ∀ f ∈ slipProg.code.funcs, CallsCovered keepSums f := by
  have h : ∀ f ∈ slipProg.code.funcs, (keepSums f).callees = [] := by decide +kernel
  intro f hf g hg
  rw [h f hf] at hg
  cases hg

theorem keep_tails : ∀ f ∈ slipProg.code.funcs, TailsOk slipProg.code keepSums f := by
  have key : ∀ e ∈ slipProg.edges, e.type = .ret := by decide
  refine fun f hf => ⟨fun b hb e he hu => ?_, fun b hb e he g hg hj => ?_⟩
  · exact absurd (key e (Small.mem_targets.mp he).1) hu.1.2.2
  · exact absurd (key e (Small.mem_targets.mp he).1) hj.1.2.2

theorem keep_left : ∀ f ∈ slipProg.code.funcs, LeftOk [] slipProg.code keepSums slipProg.bfunc f := by
  have h : ∀ f ∈ slipProg.code.funcs, (slipProg.bfunc f).noReturn = false ∧
    (slipProg.bfunc f).region = ".text" := by decide +kernel
  refine fun f hf => ⟨fun hl => ?_, fun hn => ?_⟩
  · rcases hl with hl | hl
    · exact absurd (h f hf).2 hl
    · cases hl
  · rw [(h f hf).1] at hn; cases hn

theorem keep_cleanup : ∀ f ∈ slipProg.code.funcs, ∀ L,
    doLowering {} slipProg.code f (some (keepSums f)) = some (some L) → CleanupOnly slipProg.code keepSums f := by
  intro f _ _ _ b _ e he _ hc
  have h : ∀ e ∈ slipProg.edges, e.type ≠ .catch := by decide
  exact absurd hc (h e (Small.mem_targets.mp he).1)

abbrev keepSem : ProgSem :=
  semOn Flow slipProg.code keepPlan slipProg.info (inRegOf {} keepSums) (staysOf slipProg.bfunc)

abbrev keepSnip : Func → Ev → Code → State → W → Prop :=
  slipProg.binary.Snippet {} (fun f => (keepSums f).jit {}) slipProg.code keepPlan

/-- The steps of the program, in which signals start handlers between push and check. -/
abbrev keepSignals (own : W → Prop) (depth : Nat) : XProc → XProc → Prop :=
  Disturbed (Unwinding (EStep (keepSem.handling fun _ t _ => .push ∈ t ∧ .check ∉ t) (fun _ => .r12) keepSnip
    0x100000) 0x100000) (keepSem.handling fun _ t _ => .push ∈ t ∧ .check ∉ t) keepSnip
    (Handled BeforePointer own 0x100000 depth) 0x100000

theorem keep_reg : keepSem.inReg 0 := by
  change useRegFrame {} (some (keepSums 0)) = true
  decide +kernel

theorem keep_trace {t : List Ev} (h : t <+: (keepPlan 0).trace 0 []) : keepSem.trace 0 t := by
  obtain ⟨t', ht⟩ := h
  exact ⟨by decide, t', [], 0, .nil _, ht⟩

section
variable {own : W → Prop} {depth : Nat}

theorem keep_push {s : State} {l : List W} {ra p : W} {as : List XAct} (hk : Recorded 0x100000 l s)
    (hl : l.length < 100) (he : s.regs .rsp = p) (hc : Clear 0x100000 (⟨0, [], ra, p⟩ :: as) 16 s) :
    ∃ s', keepSignals own depth (.run s (⟨0, [], ra, p⟩ :: as)) (.run s' (⟨0, [.push], ra, p⟩ :: as)) ∧
      Recorded 0x100000 l s' ∧ SameSlots (⟨0, [], ra, p⟩ :: as) s s' ∧ s'.regs .rsp = p ∧
      s'.regs .r12 = s.mem.read64 p := by
  have ht : keepSem.trace 0 ([] ++ [.push]) := keep_trace (by decide +kernel)
  have hm : (.blk 0, .reg 0) ∈ (keepPlan 0).pushes := by decide +kernel
  obtain ⟨c, hcode, hfit⟩ := C80_pushes keep_binaryOk keep_built (by decide) hm
  have hat := (Small.atHeight_blk (p := slipProg) (f := 0) (b := 0) he).1
  have hfit := hfit _ _ hat
  have hroom : 32 + 8 * l.length + 8 ≤ regionSize := by unfold regionSize; omega
  cases hfit with
  | push k => exact absurd keep_reg k
  | @save d _ hp hd =>
    have ha := (hc ⟨0, [], ra, p⟩ (by simp)).ret
    change Sep p 8 _ _ at ha
    rw [← hd] at ha
    refine ⟨_, .step (.step (.snippet (a := ⟨0, [], ra, p⟩) ht ⟨_, _, hm, hcode, hat⟩ hc (hk.hasRoom.mpr hroom)
      (hp.run (Apart.enter hk.gs ha)) nofun)), hk.regPushed _ _, fun x hx => ?_, ?_, ?_⟩
    · show (s.mem.write64 _ _).read64 _ = _
      refine read64_write64_sep _ _ _ _ ?_
      rw [hk.gs]
      exact (sep_in (a := 8) (n := 8) (hc x hx).ret (by decide)).symm
    · simp [regPushed, State.set, he]
    · rw [← hd]
      simp [regPushed, State.set, State.retAddr]

theorem keep_check {s : State} {l : List W} {ra p : W} {as : List XAct} (hk : Recorded 0x100000 l s)
    (hl : l.length < 100) (he : s.regs .rsp = p) (hr : s.regs .r12 = s.mem.read64 p)
    (hc : Clear 0x100000 (⟨0, [.push, .block 0], ra, p⟩ :: as) 16 s) :
    (s.mem.read64 p ≠ ra → keepSignals own depth (.run s (⟨0, [.push, .block 0], ra, p⟩ :: as))
      (.diverted (s.mem.read64 p))) ∧
    (s.mem.read64 p = ra → ∃ s', keepSignals own depth (.run s (⟨0, [.push, .block 0], ra, p⟩ :: as))
        (.run s' (⟨0, [.push, .block 0, .check], ra, p⟩ :: as)) ∧
      Recorded 0x100000 l s' ∧ s'.mem = s.mem ∧ s'.regs .rsp = p) := by
  have ht : keepSem.trace 0 ([.push, .block 0] ++ [.check]) := keep_trace (by decide +kernel)
  have hm : (.blk 0, .reg) ∈ (keepPlan 0).checks := by decide +kernel
  obtain ⟨c, hcode, hfit⟩ := C80_checks keep_binaryOk keep_built (by decide) (slip_calls 0 (by decide)) hm
  have hat := (Small.atHeight_blk (p := slipProg) (f := 0) (b := 0) he).2
  have hfit := hfit _ _ hat
  have hroom : 32 + 8 * l.length + 8 ≤ regionSize := by unfold regionSize; omega
  cases hfit with
  | check k => exact absurd keep_reg k
  | compare _ hp hd =>
    have hx := hp.run (s := s) (by rw [he, hr])
    refine ⟨fun hv => .step (.step (.accept (a := ⟨0, [.push, .block 0], ra, p⟩) ht ⟨_, _, hm, hcode, hat⟩ hc hx hv)),
      fun hv => ⟨_, .step (.step (.snippet (a := ⟨0, [.push, .block 0], ra, p⟩) ht ⟨_, _, hm, hcode, hat⟩ hc
        (hk.hasRoom.mpr hroom) hx fun _ => hv)), hk.keep rfl fun _ _ => rfl, rfl, ?_⟩⟩
    exact he

/-- The registers which the handler was to restore. -/
def resumed (s : State) (v : W) : State := s.set .r12 v

/-- **C100: a frame register is in the signal frame.** Under the very conditions of `C100_signals_partial` but
`HandlersAt`: a function with a frame register is interrupted between push and check; the handler overwrites its
return address and the saved value of its frame register.  The check accepts what the handler has written. -/
theorem C100_refuted_register : ∃ B co info R T bf plan frame f H,
    BinaryOk B {} {} co info R bf (fun _ => {}) frame ∧
    Built {} [] co info R T bf plan ∧ (∀ f ∈ co.funcs, CallsCovered T f) ∧
    (∀ f ∈ co.funcs, NoCallAtCheck {} co (bf f)) ∧ (∀ f ∈ co.funcs, TailsOk co T f) ∧
    (∀ f ∈ co.funcs, LeftOk [] co T bf f) ∧ (∀ f ∈ co.funcs, HandlersOk co (bf f) f) ∧
    (∀ f ∈ co.funcs, ∀ L, doLowering {} co f (some (T f)) = some (some L) → CleanupOnly co T f) ∧
    (∀ f t h, H f t h → .push ∈ t ∧ .check ∉ t) ∧
    f ∈ co.funcs ∧ (T f).writes = true ∧ ∃ s0, Recorded 0x100000 [] s0 ∧
    ∀ own depth, ∃ l : List W, ∀ v, v ∉ l → ∃ s acts ps,
      Trail (Disturbed
        (Unwinding (EStep ((semOn Flow co plan info (inRegOf {} T) (staysOf bf)).handling H) frame
          (B.Snippet {} (fun f => (T f).jit {}) co plan) 0x100000) 0x100000)
        ((semOn Flow co plan info (inRegOf {} T) (staysOf bf)).handling H)
        (B.Snippet {} (fun f => (T f).jit {}) co plan) (Handled BeforePointer own 0x100000 depth) 0x100000)
        (.start f 0x7000 s0) (.run s acts :: ps) ∧
      Disturbed
        (Unwinding (EStep ((semOn Flow co plan info (inRegOf {} T) (staysOf bf)).handling H) frame
          (B.Snippet {} (fun f => (T f).jit {}) co plan) 0x100000) 0x100000)
        ((semOn Flow co plan info (inRegOf {} T) (staysOf bf)).handling H)
        (B.Snippet {} (fun f => (T f).jit {}) co plan) (Handled BeforePointer own 0x100000 depth) 0x100000
        (.run s acts) (.diverted v) ∧ ¬ XSeen (.run s acts :: ps) v := by
  refine ⟨_, _, _, _, _, _, _, _, 0, fun _ t _ => .push ∈ t ∧ .check ∉ t, keep_binaryOk, keep_built, keep_covered,
    slip_calls, keep_tails, keep_left, slipProg_ok.handlers, keep_cleanup, fun _ _ _ h => h, by decide,
    by decide +kernel, sampleState 0x401000 [], sample_recorded, fun own depth => ⟨[0x401000, 0x401234], fun v hv => ?_⟩⟩
  have one : ∀ {t : List Ev}, ∀ x ∈ [(⟨0, t, 0x401000, 0x7000⟩ : XAct)], x.ra ∈ [(0x401000 : W), 0x401234] := by
    intro t x hx
    rw [List.mem_singleton.1 hx]
    simp
  have two : ∀ {t1 t : List Ev}, ∀ x ∈ [(⟨0, t1, 0x401234, 0x6ff8⟩ : XAct), ⟨0, t, 0x401000, 0x7000⟩],
      x.ra ∈ [(0x401000 : W), 0x401234] := by
    intro t1 t x hx
    simp only [List.mem_cons, List.not_mem_nil, or_false] at hx
    rcases hx with rfl | rfl <;> simp
  have tb : keepSem.trace 0 ([.push] ++ [.block 0]) := keep_trace (by decide +kernel)
  have tc : keepSem.complete 0 [.push, .block 0, .check] :=
    ⟨0, by decide, by decide, by decide, [], .nil _, by decide +kernel⟩
  have hdanger : keepSem.danger 0 ([.push] ++ [.block 0]) :=
    .inl ⟨tb, [.push], 0, rfl, { addr := 4096, writesMemory := true, outs := [.unknown] },
      by simp [Small.info, slipProg], rfl, rfl, .unknown, by simp, .inl rfl⟩
  have h0 : TrailIn (keepSignals own depth) (.start 0 0x7000 (sampleState 0x401000 []))
    [0x401000, 0x401234] _ := .start (by decide)
  rw [sig_start] at h0 ⊢
  have n0 := sig_snap
  -- the function
  obtain ⟨s1, t1, k1, q1, p1, r1⟩ := keep_push (own := own) (depth := depth) (ra := 0x401000) (as := [])
    n0.recorded (by decide) n0.rsp (clear_one n0.rsp)
  have hi1 : s1.mem.read64 0x7000 = 0x401000 := (q1 ⟨0, [], 0x401000, 0x7000⟩ (by simp)).trans n0.hi
  have h1 := h0.step t1 one
  have h2 := h1.step (acts := [⟨0, [.push] ++ [.block 0], 0x401000, 0x7000⟩]) (.step (.step (.block tb))) one
  have n2 : Snap s1 [] 0x7000 0x401000 (s1.mem.read64 0x6ff8) := ⟨k1, p1, hi1, rfl⟩
  -- the signal
  have n3 := n2.called 0x401234
  have h3 := h2.step (s := called s1 0x6ff8 0x401234)
    (acts := [⟨0, [], 0x401234, 0x6ff8⟩, ⟨0, [.push, .block 0], 0x401000, 0x7000⟩]) (by
    have := Disturbed.step (m := keepSem.handling fun _ t _ => .push ∈ t ∧ .check ∉ t) (snip := keepSnip)
      (sig := Handled BeforePointer own 0x100000 depth) (g := 0x100000)
      (Unwinding.step (g := 0x100000) (EStep.call (m := keepSem.handling fun _ t _ => .push ∈ t ∧ .check ∉ t)
        (frame := fun _ => .r12) (snip := keepSnip) (g := 0x100000) (s := s1) (s' := called s1 0x6ff8 0x401234)
        (a := ⟨0, [.push, .block 0], 0x401000, 0x7000⟩) (as := []) (h := 0) 0x6ff8 (Or.inr (by decide))
        ⟨rfl, (called_spares (m := sigProg.excSem) (frame := fun _ => .r12) (a := ⟨0, [], 0, 0⟩)
          (low_sep (by decide)) sigProg_reg.1).region, fun _ _ _ => by simp [called, poked, State.set]⟩ (by
          intro x hx
          rw [List.mem_singleton.mp hx]
          exact called_hi _ _)))
    rwa [n3.lo] at this) two
  -- the handler
  obtain ⟨s4, t4, k4, q4, p4, r4⟩ := keep_push (own := own) (depth := depth) (ra := 0x401234)
    (as := [⟨0, [.push, .block 0], 0x401000, 0x7000⟩]) n3.recorded (by decide) n3.rsp (clear_two n3.rsp)
  have h4 := h3.step t4 two
  have h5 := h4.step (acts := [⟨0, [.push] ++ [.block 0], 0x401234, 0x6ff8⟩, ⟨0, [.push, .block 0], 0x401000, 0x7000⟩])
    (.step (.step (.block tb))) two
  have n5 : Snap s4 [] 0x6ff8 0x401000 0x401234 := ⟨k4, p4,
    (q4 ⟨0, [.push, .block 0], 0x401000, 0x7000⟩ (by simp)).trans n3.hi,
    (q4 ⟨0, [], 0x401234, 0x6ff8⟩ (by simp)).trans n3.lo⟩
  have h6 := h5.step (s := poked s4 0x7000 v) (.step (.step (.work (poked_spares (low_sep (by decide)))
    (.inl hdanger)))) two
  have n6 := n5.poke v
  have r6 : (poked s4 0x7000 v).regs .r12 = (poked s4 0x7000 v).mem.read64 0x6ff8 := by
    rw [n6.lo]
    exact r4.trans n3.lo
  obtain ⟨s7, t7, k7, q7, p7⟩ := (keep_check (own := own) (depth := depth) (ra := 0x401234)
    (as := [⟨0, [.push, .block 0], 0x401000, 0x7000⟩]) n6.recorded (by decide) n6.rsp r6 (clear_two n6.rsp)).2 n6.lo
  have h7 := h6.step t7 two
  have h8 := h7.step (s := resumed s7 v) (.step (.step (.work ⟨rfl, fun _ _ => rfl,
    fun _ _ h => absurd (show Ev.check ∈ [Ev.push, .block 0, .check] by simp) h⟩ (.inr fun _ _ => rfl)))) two
  have h9 := h8.step (acts := [⟨0, [.push, .block 0], 0x401000, 0x7000⟩]) (s := resumed s7 v)
    (.step (.step (.ret tc (by
      show s7.mem.read64 0x6ff8 = 0x401234
      rw [q7]; exact n6.lo)))) one
  have n9 : Snap (resumed s7 v) [] 0x6ff8 v 0x401234 := ⟨k7.keep rfl fun _ _ => rfl,
    by simpa [resumed, State.set] using p7, by show s7.mem.read64 0x7000 = v; rw [q7]; exact n6.hi,
    by show s7.mem.read64 0x6ff8 = _; rw [q7]; exact n6.lo⟩
  have h10 := h9.step (s := unwound (resumed s7 v)) (.step (.step (.work ⟨rfl, fun _ _ => rfl,
    fun _ _ _ => by simp [unwound, State.set]⟩ (.inr fun _ _ => rfl)))) one
  have n10 := n9.unwound
  have r10 : (unwound (resumed s7 v)).regs .r12 = (unwound (resumed s7 v)).mem.read64 0x7000 := by
    rw [n10.hi]
    simp [unwound, resumed, State.set]
  have c11 := (keep_check (own := own) (depth := depth) (ra := 0x401000) (as := []) n10.recorded (by decide) n10.rsp
    r10 (clear_one n10.rsp)).1
  rw [n10.hi] at c11
  obtain ⟨ps, h12, h13⟩ := h10
  exact ⟨_, _, ps, h12, c11 (fun e => hv (by simp [e])), fun h => hv (h13 v h)⟩

end

/-! ## Where the theorem applies -/

/-- Signals start `f0`, which overwrites nothing, anywhere, and `f1` between push and check of `f1`. -/
def SigAt (f : Func) (t : List Ev) (h : Func) : Prop :=
  h = 0 ∨ h = 1 ∧ f = 1 ∧ .push ∈ t ∧ .check ∉ t

theorem sigProg_at : HandlersAt {} sigProg.sums sigProg.bfunc fun f t h => f < 2 ∧ SigAt f t h := by
  rintro f t h ⟨hf, k⟩
  refine ⟨?_, fun hw => ?_⟩
  · have hh := sigProg_reg
    match f, hf with
    | 0, _ => exact hh.1
    | 1, _ => exact hh.2
  · rcases k with rfl | ⟨rfl, rfl, k⟩
    · exact absurd hw (by decide +kernel)
    · exact ⟨hw, fun _ => k⟩

theorem needed_near {s : State} {t : List Ev} {ra : W} (h1 : s.regs .rsp = 0x7000) (x : W)
    (hx : Needed [⟨1, t, ra, 0x7000⟩] s x) : NearStack x := by
  rw [Needed, h1] at hx
  unfold NearStack
  rcases hx with ⟨a, ha, hx⟩ | hx
  · rw [List.mem_singleton.1 ha] at hx
    unfold InRange at hx
    bv_omega
  · unfold InRange at hx
    bv_omega

set_option maxRecDepth 20000

/-- The program is protected, and there are executions in which its push and its check are interrupted by
handlers with pushes and checks of their own, and in which a handler of the second kind runs in between. -/
theorem C100_example (frame : Func → Reg) (f : Func) :
    SProtected (sigProg.excSem.handling fun f t h => f < 2 ∧ SigAt f t h) frame
      (sigProg.signals frame (fun f t h => f < 2 ∧ SigAt f t h) SigOwn 1) SigOwn 0x100000 f ∧
    Recorded sigBase [] p0.state ∧
    sigProg.signals frame (fun f t h => f < 2 ∧ SigAt f t h) SigOwn 1 (.start 1 0x7000 p0.state)
      (.run g2.state [⟨1, [.push], 0x401000, 0x7000⟩]) ∧
    (∃ s', sigProg.signals frame (fun f t h => f < 2 ∧ SigAt f t h) SigOwn 1
      (.run g2.state [⟨1, [.push, .block 1], 0x401000, 0x7000⟩])
      (.run s' [⟨1, [], 0x401234, 0x6ff8⟩, ⟨1, [.push, .block 1], 0x401000, 0x7000⟩])) ∧
    sigProg.signals frame (fun f t h => f < 2 ∧ SigAt f t h) SigOwn 1
      (.run g2.state [⟨1, [.push, .block 1], 0x401000, 0x7000⟩])
      (.run g4.state [⟨1, [.push, .block 1, .check], 0x401000, 0x7000⟩]) := by
  have e1 := after_crun (w := demoPush) (k := demoPush) (k' := demoPush.drop 3) (n := 3) (c := p0)
    (by decide +kernel)
  have h1 := handled_some (c := g1) (by decide +kernel)
  have e2 := after_crun (w := demoPush) (k := demoPush.drop 3) (k' := []) (n := 6) (c := handled g1)
    (by decide +kernel)
  have e3 := after_crun (w := demoCheck) (k := demoCheck) (k' := demoCheck.drop 7) (n := 7) (c := g2)
    (by decide +kernel)
  have h3 := handled_some (c := g3) (by decide +kernel)
  have e4 := after_crun (w := demoCheck) (k := demoCheck.drop 7) (k' := []) (n := 4) (c := handled g3)
    (by decide +kernel)
  have sp0 : p0.state.regs .rsp = 0x7000 := rfl
  have sp2 : g2.state.regs .rsp = 0x7000 := by decide +kernel
  have r0 : p0.state.mem.read64 0x7000 = 0x401000 := cread_read (l := p0.log) (by decide)
  have r2 : g2.state.mem.read64 0x7000 = 0x401000 := cread_read (l := g2.log) (by decide +kernel)
  have hg1 : g1.state.mem.read64 0x100000 = 0x100020 := cread_read (l := g1.log) (by decide +kernel)
  have hg3 : g3.state.mem.read64 0x100000 = 0x100020 := cread_read (l := g3.log) (by decide +kernel)
  refine ⟨C100_signals_partial (sigProg.binaryOk rfl frame) sigProg_ok.built sigProg_noCalls.covered
    sigProg_noCalls.calls sigProg_noCalls.tails sigProg_noCalls.left sigProg_ok.handlers sigProg_cleanup
    sigProg_at sigOwn_real 1 0x100000 f, p0_recorded, ?_, ⟨called g2.state 0x6ff8 0x401234, ?_⟩, ?_⟩
  · rw [XProc.start, r0]
    refine Disturbed.snippet (a := ⟨1, [], 0x401000, 0x7000⟩) (ev := .push) (code := demoPush) sig1_push
      ⟨.blk 1, .stack false 0 false, by decide +kernel, by decide +kernel, (Small.atHeight_blk sp0).1⟩
      (clear_one sp0) ?_ nofun
    refine crun_interrupted (fun _ _ h _ => h) (.signal (crun_interrupted (fun _ _ h _ => h) .refl e1) ?_) e2
    refine ⟨handler_handled h1 _ 0 (needed_near sp0), ?_⟩
    rintro (h | h)
    · exact absurd h fun h => h
    · change g1.state.mem.read64 0x100000 = _ at h
      rw [hg1] at h
      exact absurd h (by decide)
  · have := Disturbed.step (m := sigProg.excSem.handling fun f t h => f < 2 ∧ SigAt f t h) (snip := sigProg.snip)
      (sig := Handled BeforePointer SigOwn 0x100000 1) (g := 0x100000)
      (Unwinding.step (g := 0x100000) (EStep.call (m := sigProg.excSem.handling fun f t h => f < 2 ∧ SigAt f t h)
        (frame := frame) (snip := sigProg.snip) (g := 0x100000) (s := g2.state)
        (s' := called g2.state 0x6ff8 0x401234) (a := ⟨1, [.push, .block 1], 0x401000, 0x7000⟩) (as := []) (h := 1)
        0x6ff8 (Or.inr ⟨by decide, .inr ⟨rfl, rfl, by decide⟩⟩)
        (called_spares (low_sep (by decide)) sigProg_reg.2) (by
          intro x hx
          rw [List.mem_singleton.mp hx]
          exact called_hi _ _)))
    rwa [show (called g2.state 0x6ff8 0x401234).mem.read64 0x6ff8 = 0x401234 from read64_write64 ..] at this
  · refine Disturbed.snippet (a := ⟨1, [.push, .block 1], 0x401000, 0x7000⟩) (ev := .check) (code := demoCheck)
      sig1_check ⟨.blk 1, .stack false, by decide +kernel, by decide +kernel, (Small.atHeight_blk sp2).2⟩
      (clear_one sp2) ?_ fun _ => r2
    refine crun_interrupted (fun _ _ _ => nofun) (.signal (crun_interrupted (fun _ _ _ => nofun) .refl e3) ?_) e4
    refine ⟨handler_handled h3 _ 0 (needed_near sp2), ?_⟩
    rintro (h | h)
    · exact absurd h fun h => h
    · change g3.state.mem.read64 0x100000 = _ at h
      rw [hg3] at h
      exact absurd h (by decide)

/-! ## A push which is left by a jump -/

/-- An execution on which no activation has disappeared between its push and its check. -/
def TrailKept (m : ProgSem) (step : XProc → XProc → Prop) (p : XProc) (q : XProc) : Prop :=
  ∃ ps, Trail step p (q :: ps) ∧ ∀ v, ¬ XLost m (q :: ps) v

theorem not_lost {m : ProgSem} {s s' : State} {acts acts' : List XAct} {ps : List XProc}
    (h : ∀ v, ¬ XLost m (.run s acts :: ps) v)
    (hn : ∀ up, acts = up ++ acts' → ∀ x ∈ up, ¬ m.stacked x.func x.done) (v : W) :
    ¬ XLost m (.run s' acts' :: .run s acts :: ps) v := by
  rintro (⟨up, acts, s, s', e1, e2, x, hx, hk, rfl⟩ | hv)
  · cases e2
    cases e1
    exact hn up rfl x hx hk
  · exact h v hv

theorem TrailKept.step {m : ProgSem} {step : XProc → XProc → Prop} {p : XProc} {s s' : State}
    {acts acts' : List XAct} (h : TrailKept m step p (.run s acts)) (hs : step (.run s acts) (.run s' acts'))
    (hn : ∀ up, acts = up ++ acts' → ∀ x ∈ up, ¬ m.stacked x.func x.done) :
    TrailKept m step p (.run s' acts') := by
  obtain ⟨ps, h1, h2⟩ := h
  exact ⟨_, h1.step hs, not_lost h2 hn⟩

theorem not_longer {a : XAct} {as up bs : List XAct} (h : a :: as = up ++ bs) (hl : bs.length = as.length + 1) :
    ∀ x ∈ up, False := by
  have := congrArg List.length h
  simp only [List.length_cons, List.length_append] at this
  cases List.length_eq_zero_iff.1 (show up.length = 0 by omega)
  nofun

/-- C100: the address of an activation whose push has been left by a jump may be accepted.  In the program of
`C100_example` the push of `f1`, started as a handler, is interrupted by a handler which jumps back to where
`f1` was called; the address remains on the shadow stack, and when the return address of the interrupted `f1` is
overwritten with it, the check accepts it. -/
theorem C100_cut (frame : Func → Reg) : ∃ s acts ps v,
    Trail (sigProg.signals frame (fun f t h => f < 2 ∧ SigAt f t h) (fun _ => False) 1)
      (.start 1 0x7000 (sampleState 0x401000 [])) (.run s acts :: ps) ∧
    sigProg.signals frame (fun f t h => f < 2 ∧ SigAt f t h) (fun _ => False) 1 (.run s acts) (.diverted v) ∧
    XCut (sigProg.excSem.handling fun f t h => f < 2 ∧ SigAt f t h) (.run s acts :: ps) v ∧
    v ≠ 0 ∧ (∀ x ∈ acts, v ≠ x.ra) ∧
    ¬ XLost (sigProg.excSem.handling fun f t h => f < 2 ∧ SigAt f t h) (.run s acts :: ps) v := by
  have h0 : TrailKept (sigProg.excSem.handling fun f t h => f < 2 ∧ SigAt f t h)
    (sigProg.signals frame (fun f t h => f < 2 ∧ SigAt f t h) (fun _ => False) 1)
    (.start 1 0x7000 (sampleState 0x401000 [])) (.start 1 0x7000 (sampleState 0x401000 [])) :=
    ⟨[], .start, fun _ h => h⟩
  rw [sig_start] at h0 ⊢
  have n0 := sig_snap
  -- the push of `f1`
  obtain ⟨s1, t1, k1, q1, p1⟩ := Small.step_push (frame := frame) (a := ⟨1, [], 0x401000, 0x7000⟩)
    (as := []) sigProg_ok rfl n0.recorded (by decide) sig1_push
    sigProg_reg.2 (b := 1) (k := .stack false 0 false) (by decide +kernel) n0.rsp (clear_one n0.rsp)
  have h1 := h0.step (Small.signals_of t1) fun up e x hx => (not_longer e rfl x hx).elim
  change Recorded _ [(sampleState 0x401000 []).mem.read64 0x7000] _ at k1
  rw [n0.hi] at k1
  have n1 : Snap s1 [0x401000] 0x7000 0x401000 (s1.mem.read64 0x6ff8) := ⟨k1, p1.trans n0.rsp,
    (q1 ⟨1, [], 0x401000, 0x7000⟩ (by simp)).trans n0.hi, rfl⟩
  have h2 := h1.step (Small.signals_of (.step (.block sig1_block))) fun up e x hx => (not_longer e rfl x hx).elim
  -- a signal
  have n3 := n1.called 0x401234
  have h3 := h2.step (acts' := [⟨1, [], 0x401234, 0x6ff8⟩, ⟨1, [.push, .block 1], 0x401000, 0x7000⟩])
    (s' := called s1 0x6ff8 0x401234) (by
    have := Disturbed.step (m := sigProg.excSem.handling fun f t h => f < 2 ∧ SigAt f t h) (snip := sigProg.snip)
      (sig := Handled BeforePointer (fun _ => False) 0x100000 1) (g := 0x100000)
      (Unwinding.step (g := 0x100000) (EStep.call (m := sigProg.excSem.handling fun f t h => f < 2 ∧ SigAt f t h)
        (frame := frame) (snip := sigProg.snip) (g := 0x100000) (s := s1)
        (s' := called s1 0x6ff8 0x401234) (a := ⟨1, [.push, .block 1], 0x401000, 0x7000⟩) (as := []) (h := 1)
        0x6ff8 (Or.inr ⟨by decide, .inr ⟨rfl, rfl, by decide⟩⟩)
        (called_spares (low_sep (by decide)) sigProg_reg.2) (by
          intro x hx
          rw [List.mem_singleton.mp hx]
          exact called_hi _ _)))
    rwa [n3.lo] at this) fun up e x hx => by
      have := congrArg List.length e
      simp at this
  -- the push of the handler, and another signal
  obtain ⟨s4, t4, k4, q4⟩ : ∃ s4, sigProg.signals frame (fun f t h => f < 2 ∧ SigAt f t h) (fun _ => False) 1
      (.run (called s1 0x6ff8 0x401234) [⟨1, [], 0x401234, 0x6ff8⟩, ⟨1, [.push, .block 1], 0x401000, 0x7000⟩])
      (.run (unwound s4) [⟨1, [.push, .block 1], 0x401000, 0x7000⟩]) ∧
      Recorded 0x100000 [0x401234, 0x401000] s4 ∧ s4.mem.read64 0x7000 = 0x401000 := by
    have hc := clear_two (t := []) (t' := [.push, .block 1]) (f := 1) (f' := 1) (ra := 0x401234) (ra' := 0x401000) n3.rsp
    have he : (called s1 0x6ff8 0x401234).regs .rsp = 0x6ff8 := n3.rsp
    obtain ⟨c, hcode, hfit⟩ := C80_pushes (sigProg.binaryOk rfl frame) sigProg_ok.built (f := 1) (by decide)
      (pl := .blk 1) (k := .stack false 0 false) (by decide +kernel)
    have hat := (Small.atHeight_blk (p := sigProg) (f := 1) (b := 1) he).1
    have hfit := hfit _ _ hat
    have hroom : 32 + 8 * [(0x401000 : W)].length + 8 ≤ regionSize := by decide
    cases hfit with
    | save k1 => exact absurd k1 sigProg_reg.2
    | @push d n _ k1 hp hle hd =>
      have ha : Apart 0x100000 ((called s1 0x6ff8 0x401234).retAddr d) n (called s1 0x6ff8 0x401234) := by
        rw [hd]
        exact (hc _ (List.mem_cons_self ..)).mono hle
      obtain ⟨s', hx, hpu⟩ := hp.run (n3.recorded.pushSep ha hroom)
      have hsl := hpu.slots n3.recorded hroom (hc.mono hle)
      refine ⟨s', .escape (up := []) (t := s') (k := []) (code := c) (ev := .push) sig1_push
        ⟨_, _, by decide +kernel, hcode, hat⟩ hc ?_ nofun ?_ ?_, ?_, ?_⟩
      · exact (hp.room n3.recorded ha (n3.recorded.hasRoom.mpr hroom) hx.interrupted).room fun _ _ h _ => h
      · exact ⟨s', s', [], none, ⟨rfl, fun _ _ => rfl⟩, .refl, rfl, fun _ _ => rfl⟩
      · exact fun x hx => hsl x (List.mem_cons_of_mem _ hx)
      · have := n3.recorded.push ha hroom hpu
        rw [hd] at this
        rwa [n3.lo] at this
      · exact (hsl ⟨1, [.push, .block 1], 0x401000, 0x7000⟩ (by simp)).trans n3.hi
  have n4 : Snap s4 [0x401234, 0x401000] (s4.regs .rsp) 0x401000 (s4.mem.read64 0x6ff8) := ⟨k4, rfl, q4, rfl⟩
  have n5 := n4.unwound.poke 0x401234
  obtain ⟨ps, h5, h6⟩ := h3
  have t5 : sigProg.signals frame (fun f t h => f < 2 ∧ SigAt f t h) (fun _ => False) 1
      (.run (unwound s4) [⟨1, [.push, .block 1], 0x401000, 0x7000⟩])
      (.run (poked (unwound s4) 0x7000 0x401234) [⟨1, [.push, .block 1], 0x401000, 0x7000⟩]) :=
    Small.signals_of (.step (.work (poked_spares (low_sep (by decide)))
      (.inl (Small.dangerX (t := [.push]) sig1_block (by decide)))))
  have c6 := Small.steps_check (frame := frame) (a := ⟨1, [.push, .block 1], 0x401000, 0x7000⟩)
    (as := []) sigProg_ok rfl n5.recorded (by simp)
    (sigProg_noCalls.calls _ (by decide)) sig1_check sigProg_reg.2 (b := 1) (k := .stack false)
    (by decide +kernel) n5.rsp (clear_one n5.rsp)
  rw [n5.hi, show scan 0x401234 [0x401234, 0x401000] = some 0 by simp [scan]] at c6
  refine ⟨_, _, _, 0x401234, (h5.step t4).step t5, Small.signals_of (c6.1 (by decide)), ?_, by decide,
    fun x hx => ?_, ?_⟩
  · exact .inr (.inl ⟨⟨1, [], 0x401234, 0x6ff8⟩, [], _, _, _, rfl, rfl, sig1_push, sigProg_reg.2, rfl⟩)
  · rw [List.mem_singleton.1 hx]
    decide
  · refine not_lost (not_lost h6 fun up e x hx hs => ?_) (fun up e x hx => (not_longer e rfl x hx).elim) _
    cases up with
    | nil => cases hx
    | cons u up =>
      have := congrArg List.length e
      simp at this
      subst this
      cases e
      rw [List.mem_singleton.1 hx] at hs
      cases hs.1

end Verif
