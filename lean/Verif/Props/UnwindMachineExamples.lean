import Verif.Props.UnwindMachine
import Verif.Props.UnwindExamples
import Verif.Props.PlanMachineExamples

/-!
# C87: example programs and attacks
-/

namespace Verif

/-! ## Two activations on the stack -/

/-- The shadow region at 0x100000 holds `l`, the stack pointer is `r`, the words at 0x7000 and 0x6ff8
are `u` and `v`. -/
structure Snap (s : State) (l : List W) (r u v : W) : Prop where
  recorded : Recorded 0x100000 l s
  rsp : s.regs .rsp = r
  hi : s.mem.read64 0x7000 = u
  lo : s.mem.read64 0x6ff8 = v

theorem Snap.poke {s : State} {l : List W} {r u v : W} (h : Snap s l r u v) (x : W) :
    Snap (poked s 0x7000 x) l r x v where
  recorded := (poked_spares (m := tryProg.excSem) (frame := fun _ => .rax) (a := ⟨0, [], 0, 0⟩)
    (low_sep (by decide))).recorded h.recorded
  rsp := h.rsp
  hi := read64_write64 _ _ _
  lo := (read64_write64_sep _ _ _ _ (sep_of_le (by decide) (by decide) (by decide))).trans h.lo

theorem called_hi (s : State) (x : W) : (called s 0x6ff8 x).mem.read64 0x7000 = s.mem.read64 0x7000 :=
  read64_write64_sep _ _ _ _ (sep_of_le (by decide) (by decide) (by decide))

theorem Snap.called {s : State} {l : List W} {r u v : W} (h : Snap s l r u v) (x : W) :
    Snap (called s 0x6ff8 x) l 0x6ff8 u x where
  recorded := (called_spares (m := ⟨fun _ _ => False, fun _ _ => False, fun _ _ => False,
    fun _ _ _ => False, fun _ _ _ => False, fun _ => False, fun _ => False⟩) (frame := fun _ => .rax) (a := ⟨0, [], 0, 0⟩)
    (low_sep (by decide)) nofun).recorded h.recorded
  rsp := called_rsp _ _ _
  hi := (called_hi _ _).trans h.hi
  lo := read64_write64 _ _ _

namespace Small
variable {p : Small} {frame : Func → Reg}

/-- The steps of a small program with exceptions. -/
abbrev steps (p : Small) (frame : Func → Reg) : XProc → XProc → Prop :=
  Unwinding (EStep p.excSem frame p.snip 0x100000) 0x100000

/-- A push at the beginning of a block. -/
theorem step_push (h : p.Ok) (hh : p.height = some (-8)) {s : State}
    {a : XAct} {as : List XAct} {l : List W} {b : Blk} {k : PushKind} (hk : Recorded 0x100000 l s) (hl : l.length < 100)
    (ht : p.excSem.trace a.func (a.done ++ [.push])) (hn : ¬ p.excSem.inReg a.func)
    (hm : (.blk b, k) ∈ (p.plan a.func).pushes) (he : s.regs .rsp = a.at_)
    (hc : Clear 0x100000 (a :: as) 16 s) : ∃ s', p.steps frame (.run s (a :: as))
      (.run s' ({ a with done := a.done ++ [.push] } :: as)) ∧
      Recorded 0x100000 (s.mem.read64 a.at_ :: l) s' ∧ SameSlots (a :: as) s s' ∧
      s'.regs .rsp = s.regs .rsp := by
  have hf : a.func ∈ p.code.funcs := And.left (b := ∃ _, _) ht
  obtain ⟨c, hcode, hfit⟩ := C80_pushes (p.binaryOk hh frame) h.built hf hm
  have hfit := hfit _ _ (atHeight_blk he).1
  have hroom : 32 + 8 * l.length + 8 ≤ regionSize := by unfold regionSize; omega
  cases hfit with
  | save k1 => exact absurd k1 hn
  | push k1 hp hle hd =>
    have ha := (hc a (by simp)).mono hle
    rw [← hd] at ha
    obtain ⟨s', hx, hpu⟩ := hp.run (hk.pushSep ha hroom)
    refine ⟨s', .step (.snippet ht ⟨_, _, hm, hcode, (atHeight_blk he).1⟩ hc
      (hk.hasRoom.mpr hroom) hx nofun), ?_, hpu.slots hk hroom (hc.mono hle), hpu.same.rsp⟩
    have := hk.push ha hroom hpu
    rwa [hd] at this

theorem steps_push (h : p.Ok) (hh : p.height = some (-8)) {q : XProc} {s : State}
    {a : XAct} {as : List XAct} {l : List W} {b : Blk} {k : PushKind}
    (hr : Steps (p.steps frame) q (.run s (a :: as))) (hk : Recorded 0x100000 l s) (hl : l.length < 100)
    (ht : p.excSem.trace a.func (a.done ++ [.push])) (hn : ¬ p.excSem.inReg a.func)
    (hm : (.blk b, k) ∈ (p.plan a.func).pushes) (he : s.regs .rsp = a.at_)
    (hc : Clear 0x100000 (a :: as) 16 s) : ∃ s', Steps (p.steps frame) q
      (.run s' ({ a with done := a.done ++ [.push] } :: as)) ∧
      Recorded 0x100000 (s.mem.read64 a.at_ :: l) s' ∧ SameSlots (a :: as) s s' ∧
      s'.regs .rsp = s.regs .rsp := by
  obtain ⟨s', h1, h2⟩ := step_push (frame := frame) h hh hk hl ht hn hm he hc
  exact ⟨s', hr.step h1, h2⟩

/-- A check at the end of a block. -/
theorem steps_check (h : p.Ok) (hh : p.height = some (-8)) {s : State}
    {a : XAct} {as : List XAct} {l : List W} {b : Blk} {k : PopKind}
    (hk : Recorded 0x100000 l s) (hl : l.length < 100)
    (hcalls : NoCallAtCheck {} p.code (p.bfunc a.func))
    (ht : p.excSem.trace a.func (a.done ++ [.check])) (hn : ¬ p.excSem.inReg a.func)
    (hm : (.blk b, k) ∈ (p.plan a.func).checks) (he : s.regs .rsp = a.at_)
    (hc : Clear 0x100000 (a :: as) 16 s) :
    match scan (s.mem.read64 a.at_) l with
    | none => p.steps frame (.run s (a :: as)) .killed
    | some i => (s.mem.read64 a.at_ ≠ a.ra →
          p.steps frame (.run s (a :: as)) (.diverted (s.mem.read64 a.at_))) ∧
        (s.mem.read64 a.at_ = a.ra → i < l.length → ∃ s', p.steps frame (.run s (a :: as))
          (.run s' ({ a with done := a.done ++ [.check] } :: as)) ∧ SameSlots (a :: as) s s' ∧
          Recorded 0x100000 (l.drop (i + 1)) s' ∧ s'.regs .rsp = s.regs .rsp) := by
  have hf : a.func ∈ p.code.funcs := And.left (b := ∃ _, _) ht
  obtain ⟨c, hcode, hfit⟩ := C80_checks (p.binaryOk hh frame) h.built hf hcalls hm
  have hfit := hfit _ _ (atHeight_blk he).2
  have hroom : 32 + 8 * l.length + 8 ≤ regionSize := by unfold regionSize; omega
  cases hfit with
  | compare k1 => exact absurd k1 hn
  | @check d n free k1 hp hle hd =>
    have ha := (hc a (by simp)).mono hle
    rw [← hd] at ha
    have hrun := hp.run hk.holds (hk.checkSep ha)
    rw [show s.regs .rsp + BitVec.ofInt 64 d = a.at_ from hd] at hrun
    cases hs : scan (s.mem.read64 a.at_) l with
    | none =>
      rw [hs] at hrun
      exact .step (.trap ht ⟨_, _, hm, hcode, (atHeight_blk he).2⟩ hc (hk.hasRoom.mpr hroom) hrun)
    | some i =>
      rw [hs] at hrun
      obtain ⟨s', hx, hck⟩ := hrun
      exact ⟨fun hv => .step (.accept ht ⟨_, _, hm, hcode, (atHeight_blk he).2⟩ hc hx hv),
        fun hv hi => ⟨s', .step (.snippet ht ⟨_, _, hm, hcode, (atHeight_blk he).2⟩ hc
          (hk.hasRoom.mpr hroom) hx fun _ => hv), hck.slots hk (hc.mono hle), hk.check ha hi hck,
          hck.same.rsp⟩⟩

end Small

/-! ## A program which throws and catches -/

section
variable {frame : Func → Reg}

/-- One activation. -/
theorem clear_one {s : State} {f : Func} {t : List Ev} {ra : W} (h : s.regs .rsp = 0x7000) :
    Clear 0x100000 [⟨f, t, ra, 0x7000⟩] 16 s := by
  refine clear_of ?_ (by rw [h]; decide)
  intro z hz
  rw [List.mem_singleton.mp hz, h]
  simp

/-- Two activations. -/
theorem clear_two {s : State} {f f' : Func} {t t' : List Ev} {ra ra' : W} (h : s.regs .rsp = 0x6ff8) :
    Clear 0x100000 [⟨f, t, ra, 0x6ff8⟩, ⟨f', t', ra', 0x7000⟩] 16 s := by
  refine clear_of ?_ (by rw [h]; decide)
  intro z hz
  simp only [List.mem_cons, List.not_mem_nil, or_false] at hz
  rw [h]
  rcases hz with rfl | rfl <;> simp

/-- `f1` calls `f2` from an address of our choice. -/
theorem tryProg_xcall (frame : Func → Reg) (w : W) : ∃ s, Snap s [w, 0x401000] 0x6ff8 0x401000 w ∧
    Steps (tryProg.steps frame) (.start 1 0x7000 (sampleState 0x401000 []))
      (.run s [⟨2, [.push], w, 0x6ff8⟩, ⟨1, [.push, .block 5], 0x401000, 0x7000⟩]) := by
  have e1 : tryProg.excSem.trace 1 ([] ++ [.push]) :=
    Small.startsX (b' := 5) [] (by decide) (by decide) (by decide +kernel)
  have e2 : tryProg.excSem.trace 1 ([.push] ++ [.block 5]) :=
    Small.startsX (b' := 5) [] (by decide) (by decide) (by decide +kernel)
  have d1 : tryProg.excSem.trace 2 ([] ++ [.push]) :=
    Small.startsX (b' := 9) [] (by decide) (by decide) (by decide +kernel)
  have e0 : (sampleState 0x401000 []).mem.read64 0x7000 = 0x401000 := by decide
  have r0 : Steps (tryProg.steps frame) (.start 1 0x7000 (sampleState 0x401000 []))
    (.run (sampleState 0x401000 []) [⟨1, [], 0x401000, 0x7000⟩]) := by
    rw [XProc.start, e0]; exact .refl _
  obtain ⟨s1, r1, k1, q1, p1⟩ := Small.steps_push tryProg_ok rfl r0 sample_recorded (by decide) e1
    tryProg_reg.1 (b := 5) (k := .stack false 0 false) (by decide +kernel) (by decide)
    (clear_one (by decide))
  change Recorded _ [(sampleState 0x401000 []).mem.read64 0x7000] _ at k1
  rw [e0] at k1
  have v1 : s1.mem.read64 0x7000 = 0x401000 := (q1 ⟨1, [], 0x401000, 0x7000⟩ (by simp)).trans e0
  have n1 : Snap s1 [0x401000] 0x7000 0x401000 (s1.mem.read64 0x6ff8) := ⟨k1, p1, v1, rfl⟩
  have r2 := r1.step (.step (.block e2))
  have n3 := n1.called w
  have r3 := r2.step (.step (.call (h := 2) 0x6ff8
    (Small.callsX (t := [.push]) tryProg.edges[8] (by decide +kernel) e2 (by decide) (by decide)
      (Small.direct (by decide) (by decide) (by decide +kernel)))
    (called_spares (s := s1) (p := 0x6ff8) (v := w) (low_sep (by decide)) tryProg_reg.1) (by
      intro x hx
      rw [List.mem_singleton.mp hx]
      exact called_hi _ _)))
  rw [n3.lo] at r3
  obtain ⟨s4, r4, k4, q4, p4⟩ := Small.steps_push tryProg_ok rfl r3 n3.recorded (by decide) d1
    tryProg_reg.2 (b := 9) (k := .stack false 0 false)
    (show _ ∈ (tryProg.plan 2).pushes by decide +kernel) n3.rsp (clear_two n3.rsp)
  change Recorded _ [(called s1 0x6ff8 w).mem.read64 0x6ff8, 0x401000] _ at k4
  rw [n3.lo] at k4
  exact ⟨s4, ⟨k4, p4.trans n3.rsp,
    (q4 ⟨1, [.push, .block 5], 0x401000, 0x7000⟩ (by simp)).trans n3.hi,
    (q4 ⟨2, [], w, 0x6ff8⟩ (by simp)).trans n3.lo⟩, r4⟩

/-- The unwinder goes back to `f1`. -/
def unwound (s : State) : State := s.set .rsp 0x7000

theorem Snap.unwound {s : State} {l : List W} {r u v : W} (h : Snap s l r u v) :
    Snap (unwound s) l 0x7000 u v where
  recorded := h.recorded.keep rfl fun _ _ => rfl
  rsp := by simp [Verif.unwound, State.set]
  hi := h.hi
  lo := h.lo

theorem tryProg_xprotected (frame : Func → Reg) (f : Func) :
    UXProtected tryProg.excSem frame (tryProg.steps frame) 0x100000 f :=
  C87_planned_partial (tryProg.binaryOk rfl frame) tryProg_ok.built
    (tryProg_ok.built.covered (tryProg_ok.noRecursion (by decide +kernel))) tryProg_calls tryProg_tails
    (Small.allIn rfl rfl rfl) tryProg_ok.handlers
    tryProg_cleanup 0x100000 f

/-- Example for `C87_planned_partial`: the call of `f2` is abandoned, `f1` goes on in its handler; the
entry of the abandoned call stays in the region. -/
example (frame : Func → Reg) : UXProtected tryProg.excSem frame (tryProg.steps frame) 0x100000 1 ∧
    ∃ s, Snap s [0x401234, 0x401000] 0x7000 0x401000 0x401234 ∧
      Steps (tryProg.steps frame) (.start 1 0x7000 (sampleState 0x401000 []))
        (.run s [⟨1, [.push, .block 5, .block 7], 0x401000, 0x7000⟩]) := by
  refine ⟨tryProg_xprotected frame 1, ?_⟩
  obtain ⟨s, n, r⟩ := tryProg_xcall frame 0x401234
  have e3 : tryProg.excSem.trace 1 ([.push, .block 5] ++ [.block 7]) :=
    Small.startsX (b' := 7) [tryProg.edges[10]] (by decide) (by decide) (by decide +kernel)
  have r1 := r.step (.unwind (up := []) (s' := unwound s) rfl (fun _ _ => rfl) fun _ _ => rfl)
  exact ⟨_, n.unwound, r1.step (.step (.block e3))⟩

/-- **C87: exceptions are not checked.** Under the very conditions of `C87_planned_partial`, when an
exception is thrown the unwinder goes on at an address of the attacker's choice. -/
theorem C87_refuted_unwinding : ∃ B co info R T bf plan f,
    (∀ frame, BinaryOk B {} {} co info R bf (fun _ => {}) frame) ∧
    Built {} [] co info R T bf plan ∧ (∀ f ∈ co.funcs, NoCallAtCheck {} co (bf f)) ∧
    (∀ f ∈ co.funcs, LeftOk [] co T bf f) ∧
    (∀ f ∈ co.funcs, NoRecursion T f) ∧ (∀ f ∈ co.funcs, TailsOk co T f) ∧
    (∀ f ∈ co.funcs, HandlersOk co (bf f) f) ∧
    (∀ f ∈ co.funcs, ∀ L, doLowering {} co f (some (T f)) = some (some L) → CleanupOnly co T f) ∧
    f ∈ co.funcs ∧ ∃ pos s0, Recorded 0x100000 [] s0 ∧ ∀ frame v, v ≠ s0.mem.read64 pos → ∃ p,
      Steps (Unwinding (EStep (semOn Flow co plan info (inRegOf {} T) (staysOf bf)) frame
        (B.Snippet {} (fun f => (T f).jit {}) co plan) 0x100000) 0x100000) (.start f pos s0) p ∧
      XMisled p v := by
  refine ⟨_, _, _, _, _, _, _, 1, fun frame => tryProg.binaryOk rfl frame, tryProg_ok.built, tryProg_calls,
    Small.allIn rfl rfl rfl,
    tryProg_ok.noRecursion (by decide +kernel), tryProg_tails, tryProg_ok.handlers, tryProg_cleanup,
    by decide, 0x7000, _, sample_recorded, fun frame v hv => ?_⟩
  have e0 : (sampleState 0x401000 []).mem.read64 0x7000 = 0x401000 := by decide
  rw [e0] at hv
  obtain ⟨s, n, r⟩ := tryProg_xcall frame 0x401234
  have r1 := r.step (.step (.block tryProg_write))
  have r2 := r1.step (.step (.work (s' := poked s 0x7000 v) (poked_spares (low_sep (by decide)))
    (.inl (Small.dangerX (t := [.push]) tryProg_write (by decide)))))
  refine ⟨_, r2, poked s 0x7000 v, [⟨2, [.push, .block 9], 0x401234, 0x6ff8⟩], _, [], rfl, ?_,
    (n.poke v).hi, hv⟩
  intro x hx
  rw [List.mem_singleton.mp hx]
  exact (n.poke v).lo

/-- **C87: a check accepts the address of an activation that was abandoned.** Under the very conditions
of `C87_planned_partial`. -/
theorem C87_refuted_stale : ∃ B co info R T bf plan f,
    (∀ frame, BinaryOk B {} {} co info R bf (fun _ => {}) frame) ∧
    Built {} [] co info R T bf plan ∧ (∀ f ∈ co.funcs, NoCallAtCheck {} co (bf f)) ∧
    (∀ f ∈ co.funcs, LeftOk [] co T bf f) ∧
    (∀ f ∈ co.funcs, NoRecursion T f) ∧ (∀ f ∈ co.funcs, TailsOk co T f) ∧
    (∀ f ∈ co.funcs, HandlersOk co (bf f) f) ∧
    (∀ f ∈ co.funcs, ∀ L, doLowering {} co f (some (T f)) = some (some L) → CleanupOnly co T f) ∧
    f ∈ co.funcs ∧ ∃ pos s0, Recorded 0x100000 [] s0 ∧ ∀ frame, ∃ s acts v,
      Steps (Unwinding (EStep (semOn Flow co plan info (inRegOf {} T) (staysOf bf)) frame
        (B.Snippet {} (fun f => (T f).jit {}) co plan) 0x100000) 0x100000) (.start f pos s0) (.run s acts) ∧
      Unwinding (EStep (semOn Flow co plan info (inRegOf {} T) (staysOf bf)) frame
        (B.Snippet {} (fun f => (T f).jit {}) co plan) 0x100000) 0x100000 (.run s acts) (.diverted v) ∧
      v ≠ 0 ∧ ∀ x ∈ acts, v ≠ x.ra := by
  refine ⟨_, _, _, _, _, _, _, 1, fun frame => tryProg.binaryOk rfl frame, tryProg_ok.built, tryProg_calls,
    Small.allIn rfl rfl rfl,
    tryProg_ok.noRecursion (by decide +kernel), tryProg_tails, tryProg_ok.handlers, tryProg_cleanup,
    by decide, 0x7000, _, sample_recorded, fun frame => ?_⟩
  have e3 : tryProg.excSem.trace 1 ([.push, .block 5] ++ [.block 7]) :=
    Small.startsX (b' := 7) [tryProg.edges[10]] (by decide) (by decide) (by decide +kernel)
  have e4 : tryProg.excSem.trace 1 ([.push, .block 5, .block 7] ++ [.block 6]) :=
    Small.startsX (b' := 6) [tryProg.edges[10], tryProg.edges[11]] (by decide) (by decide) (by decide +kernel)
  have e5 : tryProg.excSem.trace 1 ([.push, .block 5, .block 7, .block 6] ++ [.block 8]) :=
    Small.startsX (b' := 8) [tryProg.edges[10], tryProg.edges[11], tryProg.edges[13]] (by decide) (by decide)
      (by decide +kernel)
  have e6 : tryProg.excSem.trace 1 ([.push, .block 5, .block 7, .block 6, .block 8] ++ [.check]) :=
    Small.startsX (b' := 8) [tryProg.edges[10], tryProg.edges[11], tryProg.edges[13]] (by decide) (by decide)
      (by decide +kernel)
  have d1 : tryProg.excSem.trace 2 ([] ++ [.push]) :=
    Small.startsX (b' := 9) [] (by decide) (by decide) (by decide +kernel)
  have d3 : tryProg.excSem.trace 2 ([.push, .block 9] ++ [.check]) :=
    Small.startsX (b' := 9) [] (by decide) (by decide) (by decide +kernel)
  obtain ⟨s, n, r⟩ := tryProg_xcall frame 8
  have r1 := r.step (.unwind (up := []) (s' := unwound s) rfl (fun _ _ => rfl) fun _ _ => rfl)
  have n1 := n.unwound
  have r3 := (r1.step (.step (.block e3))).step (.step (.block e4))
  -- the second call
  have n4 := n1.called 9
  have r4 := r3.step (.step (.call (h := 2) 0x6ff8
    (Small.callsX (t := [.push, .block 5, .block 7]) tryProg.edges[12] (by decide +kernel) e4 (by decide)
      (by decide) (Small.direct (by decide) (by decide) (by decide +kernel)))
    (called_spares (s := unwound s) (p := 0x6ff8) (v := 9) (low_sep (by decide)) tryProg_reg.1) (by
      intro x hx
      rw [List.mem_singleton.mp hx]
      exact called_hi _ _)))
  rw [n4.lo] at r4
  obtain ⟨s5, r5, k5, q5, p5⟩ := Small.steps_push tryProg_ok rfl r4 n4.recorded (by decide) d1
    tryProg_reg.2 (b := 9) (k := .stack false 0 false)
    (show _ ∈ (tryProg.plan 2).pushes by decide +kernel) n4.rsp (clear_two n4.rsp)
  change Recorded _ [(called (unwound s) 0x6ff8 9).mem.read64 0x6ff8, 8, 0x401000] _ at k5
  rw [n4.lo] at k5
  have n5 : Snap s5 [9, 8, 0x401000] 0x6ff8 0x401000 9 := ⟨k5, p5.trans n4.rsp,
    (q5 ⟨1, [.push, .block 5, .block 7, .block 6], 0x401000, 0x7000⟩ (by simp)).trans n4.hi,
    (q5 ⟨2, [], 9, 0x6ff8⟩ (by simp)).trans n4.lo⟩
  -- which overwrites the return address of its caller
  have r6 := r5.step (.step (.block tryProg_write))
  have r7 := r6.step (.step (.work (s' := poked s5 0x7000 8) (poked_spares (low_sep (by decide)))
    (.inl (Small.dangerX (t := [.push]) tryProg_write (by decide)))))
  have n7 := n5.poke 8
  have c8 := Small.steps_check (frame := frame) (a := ⟨2, [.push, .block 9], 9, 0x6ff8⟩)
    (as := [⟨1, [.push, .block 5, .block 7, .block 6], 0x401000, 0x7000⟩]) tryProg_ok rfl n7.recorded
    (by decide) (tryProg_calls _ (by decide)) d3 tryProg_reg.2 (b := 9) (k := .stack false)
    (by decide +kernel) n7.rsp (clear_two n7.rsp)
  rw [n7.lo, show scan 9 [9, 8, 0x401000] = some 0 by decide] at c8
  obtain ⟨s8, t8, q8, k8, p8⟩ := c8.2 rfl (by decide)
  have r8 := r7.step t8
  have r9 := r8.step (.step (.ret
    (Small.endsX (b := 9) [] (by decide) (by decide) (by decide) (by decide) (by decide +kernel))
    ((q8 ⟨2, [.push, .block 9], 9, 0x6ff8⟩ (by simp)).trans n7.lo)))
  have n9 : Snap s8 [8, 0x401000] 0x6ff8 8 9 := ⟨k8, p8.trans n7.rsp,
    (q8 ⟨1, [.push, .block 5, .block 7, .block 6], 0x401000, 0x7000⟩ (by simp)).trans n7.hi,
    (q8 ⟨2, [.push, .block 9], 9, 0x6ff8⟩ (by simp)).trans n7.lo⟩
  -- back in `f1`
  have n10 := n9.unwound
  have r10 := r9.step (.step (.work (s' := unwound s8) ⟨rfl, fun _ _ => rfl,
    fun h => absurd h tryProg_reg.1⟩ (.inr fun _ _ => rfl)))
  have r11 := r10.step (.step (.block e5))
  have c12 := Small.steps_check (frame := frame)
    (a := ⟨1, [.push, .block 5, .block 7, .block 6, .block 8], 0x401000, 0x7000⟩) (as := []) tryProg_ok rfl
    n10.recorded (by decide) (tryProg_calls _ (by decide)) e6 tryProg_reg.1 (b := 8) (k := .stack false)
    (by decide +kernel) n10.rsp (clear_one n10.rsp)
  rw [n10.hi, show scan 8 [8, 0x401000] = some 0 by decide] at c12
  refine ⟨_, _, 8, r11, c12.1 (by simp), by decide, ?_⟩
  intro x hx
  rw [List.mem_singleton.mp hx]
  simp

end

end Verif
