import Verif.Props.Machine
import Verif.Props.WholeExamples
import Verif.Props.Honest

/-!
# C79: instrumented programs on the machine
-/

namespace Verif

/-- **C79, what holds.** The machine executing the instrumented program protects every thread,
under the conditions of `C45_protected_partial`: dangerous moments find all return addresses in the
shadow region or a frame register, no return is unchecked, and only an overwritten return address
raises an alarm. -/
theorem C79_machine_partial {fl : InstrFlags} {skip : List Nat} {co : CodeObj} {info : StackInfo}
    {R : Func → RegFacts} {T : Sums} {bf : Func → BFunc} {plan : Func → Plan}
    (hb : Built fl skip co info R T bf plan)
    (hcall : ∀ f ∈ co.funcs, NoCallAtCheck fl co (bf f)) (hnr : ∀ f ∈ co.funcs, CallsCovered T f)
    (htail : ∀ f ∈ co.funcs, TailsOk co T f) (hleft : ∀ f ∈ co.funcs, LeftOk skip co T bf f)
    (frame : Func → Reg) (g : W) (f : Func) :
    XProtected (semOf co info plan (inRegOf fl T) (staysOf bf)) frame g f :=
  (built_sound hb hcall hnr htail hleft).machine f

/-! ## Example: an attack on a protected program -/

section
variable {frame : Func → Reg}

theorem xrun_push {m : ProgSem} {p : XProc} {s : State} {a : XAct} {as : List XAct} {l : List W}
    {g : W} (h : XRun m frame g p (.run s (a :: as))) (hr : Recorded g l s) (hl : l.length < 100)
    (ht : m.trace a.func (a.done ++ [.push])) (hn : ¬ m.inReg a.func) (he : s.regs .rsp = a.at_)
    (hc : Clear g (a :: as) 16 s) : ∃ s', XRun m frame g p
      (.run s' ({ a with done := a.done ++ [.push] } :: as)) ∧
      Recorded g (s.mem.read64 a.at_ :: l) s' ∧ SameSlots (a :: as) s s' ∧ s'.regs .rsp = s.regs .rsp := by
  obtain ⟨code, free, hp⟩ := default_isPush
  have hd : s.retAddr 0 = a.at_ := by rw [State.retAddr, he]; simp
  have ha := hc a (by simp)
  rw [← hd] at ha
  have hroom : 32 + 8 * l.length + 8 ≤ regionSize := by unfold regionSize; omega
  obtain ⟨s', hx, hpu⟩ := hp.run (hr.pushSep ha hroom)
  refine ⟨s', h.step (.push ht hn hp hd hc (hr.hasRoom.mpr hroom) hx), ?_,
    hpu.slots hr hroom hc, hpu.same.rsp⟩
  have := hr.push ha hroom hpu
  rwa [hd] at this

end

/-- Memory after a write outside the region. -/
def poked (s : State) (p v : W) : State := { s with mem := s.mem.write64 p v }

theorem poked_spares {m : ProgSem} {frame : Func → Reg} {g : W} {a : XAct} {s : State} {p v : W}
    (h : Sep p 8 g regionSize) : Spares m frame g a s (poked s p v) where
  gs := rfl
  region _ hx := write64_outRange _ _ _ _ (sep_not_inRange h.symm hx)
  frame _ _ _ := rfl

theorem low_sep {p : W} (h : p.toNat ≤ 0x7000) : Sep p 8 0x100000 regionSize :=
  sep_of_le (by decide) (by decide) (by unfold regionSize; constructor <;> bv_omega)

theorem clear_of {acts : List XAct} {s : State} (h : ∀ x ∈ acts, s.regs .rsp ≤ x.at_ ∧ x.at_.toNat ≤ 0x7000)
    (hs : 0x1000 ≤ s.regs .rsp ∧ s.regs .rsp ≤ 0x7000) : Clear 0x100000 acts 16 s := by
  intro x hx
  obtain ⟨h1, h2⟩ := h x hx
  refine ⟨low_sep h2, ?_, ?_⟩ <;> refine sep_of_le (by decide) (by decide) ?_ <;>
    (try unfold regionSize) <;> constructor <;> bv_omega

/-- Example for `C79_machine_partial`: a function of a protected program, whose return address is
overwritten between push and check.  The machine kills the thread. -/
example (frame : Func → Reg) :
    XProtected goodProg.sem frame 0x100000 2 ∧
    XRun goodProg.sem frame 0x100000 (.start 2 0x7000 (sampleState 0x401000 [])) .killed := by
  refine ⟨C79_machine_partial goodProg_ok.built goodProg_calls
    (goodProg_ok.built.covered (goodProg_ok.noRecursion (by decide +kernel))) goodProg_tails
    (Small.allIn rfl rfl rfl) _ _ _, ?_⟩
  have hreg : ¬ goodProg.sem.inReg 2 := by
    change ¬ (useRegFrame {} (some (goodProg.sums 2)) = true); decide +kernel
  have t1 : goodProg.sem.trace 2 ([] ++ [.push]) :=
    Small.starts (b' := 5) [] (by decide) (by decide) (by decide +kernel)
  have t2 : goodProg.sem.trace 2 ([.push] ++ [.block 5]) :=
    Small.starts (b' := 5) [] (by decide) (by decide) (by decide +kernel)
  have t3 : goodProg.sem.trace 2 ([.push, .block 5] ++ [.check]) :=
    Small.starts (b' := 5) [] (by decide) (by decide) (by decide +kernel)
  have r0 : XRun goodProg.sem frame 0x100000 (.start 2 0x7000 (sampleState 0x401000 []))
    (.run (sampleState 0x401000 []) [⟨2, [], 0x401000, 0x7000⟩]) := by
    have : (sampleState 0x401000 []).mem.read64 0x7000 = 0x401000 := by decide
    rw [XProc.start, this]; exact .refl _
  obtain ⟨s1, r1, k1, _, p1⟩ := xrun_push r0 sample_recorded (by decide) t1 hreg (by decide)
    (clear_of (by decide) (by decide))
  have e0 : (sampleState 0x401000 []).mem.read64 0x7000 = 0x401000 := by decide
  rw [show (XAct.at_ ⟨2, [], 0x401000, 0x7000⟩) = 0x7000 from rfl, e0] at k1
  have p1 : s1.regs .rsp = 0x7000 := p1
  have r2 := r1.step (.block t2)
  have hsp : Spares goodProg.sem frame 0x100000 ⟨2, [.push, .block 5], 0x401000, 0x7000⟩ s1
    (poked s1 0x7000 666) := poked_spares (low_sep (by decide))
  have r3 := r2.step (.work hsp (.inl (Small.danger_write (t := [.push]) t2 (by decide))))
  have k3 := hsp.recorded k1
  have hcl : Clear 0x100000 [⟨2, [.push, .block 5], 0x401000, 0x7000⟩] 16 (poked s1 0x7000 666) := by
    refine clear_of ?_ ?_
    · intro x hx
      simp only [List.mem_singleton] at hx
      subst hx
      show s1.regs .rsp ≤ _ ∧ _
      rw [p1]; decide
    · show _ ≤ s1.regs .rsp ∧ s1.regs .rsp ≤ _
      rw [p1]; decide
  obtain ⟨code, free, hc⟩ := default_isCheck
  have hd : (poked s1 0x7000 666).retAddr 0 = 0x7000 := by
    show s1.regs .rsp + _ = _; rw [p1]; decide
  have ha := hcl _ (List.mem_singleton.mpr rfl)
  have ha' : Apart 0x100000 ((poked s1 0x7000 666).retAddr 0) 16 (poked s1 0x7000 666) := by
    rw [hd]; exact ha
  have hrun := hc.run k3.holds (k3.checkSep ha')
  have hv : (poked s1 0x7000 666).mem.read64 ((poked s1 0x7000 666).regs .rsp + BitVec.ofInt 64 0) = 666 := by
    rw [show (poked s1 0x7000 666).regs .rsp + BitVec.ofInt 64 0 = 0x7000 from hd]
    exact read64_write64 _ _ _
  rw [hv, show scan 666 [0x401000] = none by decide] at hrun
  exact r3.step (.fail t3 hreg hc hd hcl hrun)

/-! ## C79 is false in general -/

/-- The stack pointer moved down and a return address stored there. -/
def called (s : State) (p v : W) : State := (poked s p v).set .rsp p

theorem called_spares {m : ProgSem} {frame : Func → Reg} {g : W} {a : XAct} {s : State} {p v : W}
    (h : Sep p 8 g regionSize) (hr : ¬ m.inReg a.func) : Spares m frame g a s (called s p v) where
  gs := rfl
  region _ hx := write64_outRange _ _ _ _ (sep_not_inRange h.symm hx)
  frame k _ _ := absurd k hr

theorem called_rsp (s : State) (p v : W) : (called s p v).regs .rsp = p := by simp [called, State.set]

/-- **C79 fails for recursive programs**: the machine executes the emitted snippets, and still a
return goes unchecked to an address of the attacker's choice. -/
theorem C79_refuted : ∃ co info R T bf plan f,
    Built {} [] co info R T bf plan ∧ (∀ f ∈ co.funcs, NoCallAtCheck {} co (bf f)) ∧
    (∀ f ∈ co.funcs, LeftOk [] co T bf f) ∧
    (∀ f ∈ co.funcs, TailsOk co T f) ∧ f ∈ co.funcs ∧
    ∀ frame, ¬ XProtected (semOf co info plan (inRegOf {} T) (staysOf bf)) frame 0x100000 f := by
  refine ⟨_, _, _, _, _, _, 1, recProg_ok.built, recProg_calls, Small.allIn rfl rfl rfl,
    recProg_tails, by decide, ?_⟩
  intro frame hprot
  refine hprot.unchecked (sampleState 0x401000 []) 0x7000 666 sample_recorded ?_
  have hs : recProg.plan 1 = .skipped := Small.skipped_of (by decide +kernel)
  have hreg : ¬ recProg.sem.inReg 0 := by
    change ¬ (useRegFrame {} (some (recProg.sums 0)) = true); decide +kernel
  have hreg1 : ¬ recProg.sem.inReg 1 := by
    change ¬ (useRegFrame {} (some (recProg.sums 1)) = true); decide +kernel
  have e1 : recProg.sem.trace 1 ([] ++ [.block 3]) :=
    Small.starts (b' := 3) [] (by decide) (by decide) (by decide +kernel)
  have e2 : recProg.sem.trace 1 ([.block 3] ++ [.block 4]) :=
    Small.starts (b' := 4) [recProg.edges[6]] (by decide) (by decide) (by decide +kernel)
  have d1 : recProg.sem.trace 0 ([] ++ [.push]) :=
    Small.starts (b' := 0) [] (by decide) (by decide) (by decide +kernel)
  have d2 : recProg.sem.trace 0 ([.push] ++ [.block 0]) :=
    Small.starts (b' := 0) [] (by decide) (by decide) (by decide +kernel)
  have d3 : recProg.sem.trace 0 ([.push, .block 0] ++ [.block 2]) :=
    Small.starts (b' := 2) [recProg.edges[1]] (by decide) (by decide) (by decide +kernel)
  have d4 : recProg.sem.trace 0 ([.push, .block 0, .block 2] ++ [.check]) :=
    Small.starts (b' := 2) [recProg.edges[1]] (by decide) (by decide) (by decide +kernel)
  have r0 : XRun recProg.sem frame 0x100000 (.start 1 0x7000 (sampleState 0x401000 []))
    (.run (sampleState 0x401000 []) [⟨1, [], 0x401000, 0x7000⟩]) := by
    have : (sampleState 0x401000 []).mem.read64 0x7000 = 0x401000 := by decide
    rw [XProc.start, this]; exact .refl _
  have r1 := r0.step (.block e1)
  -- the call
  have sp2 : Spares recProg.sem frame 0x100000 ⟨1, [.block 3], 0x401000, 0x7000⟩
      (sampleState 0x401000 []) (called (sampleState 0x401000 []) 0x6ff8 8) :=
    called_spares (low_sep (by decide)) hreg1
  have r2 := r1.step (.call (h := 0) 0x6ff8
    (Small.calls_skipped (t := []) recProg.edges[5] hs e1 (by decide) (by decide)
      (Small.direct (by decide) (by decide) (by decide +kernel))) sp2 (by
        intro x hx
        simp only [List.mem_singleton] at hx
        subst hx
        exact read64_write64_sep _ _ _ _ (sep_of_le (by decide) (by decide) (by decide))))
  have v2 : (called (sampleState 0x401000 []) 0x6ff8 8).mem.read64 0x6ff8 = 8 := read64_write64 _ _ _
  rw [v2] at r2
  have two : ∀ (s : State) (x y : List Ev), s.regs .rsp = 0x6ff8 →
      Clear 0x100000 [⟨0, x, 8, 0x6ff8⟩, ⟨1, y, 0x401000, 0x7000⟩] 16 s := by
    intro s x y h
    refine clear_of ?_ (by rw [h]; decide)
    intro z hz
    simp only [List.mem_cons, List.not_mem_nil, or_false] at hz
    rw [h]
    rcases hz with rfl | rfl <;> simp
  -- the push
  obtain ⟨s3, r3, k3, q3, p3⟩ := xrun_push r2 (sp2.recorded sample_recorded) (by decide) d1 hreg
    (called_rsp _ _ _) (two _ _ _ (called_rsp _ _ _))
  rw [called_rsp] at p3
  change Recorded _ [(called (sampleState 0x401000 []) 0x6ff8 8).mem.read64 0x6ff8] _ at k3
  rw [v2] at k3
  have v3 : s3.mem.read64 0x6ff8 = 8 := (q3 ⟨0, [], 8, 0x6ff8⟩ (by simp)).trans v2
  have r4 := r3.step (.block d2)
  -- the attack
  have sp5 : Spares recProg.sem frame 0x100000 ⟨0, [.push, .block 0], 8, 0x6ff8⟩ s3
    (poked s3 0x7000 666) := poked_spares (low_sep (by decide))
  have r5 := r4.step (.work sp5 (.inl (Small.danger_write (t := [.push]) d2 (by decide))))
  have k5 := sp5.recorded k3
  have v5 : (poked s3 0x7000 666).mem.read64 0x6ff8 = 8 := by
    rw [← v3]
    exact read64_write64_sep _ _ _ _ (sep_of_le (by decide) (by decide) (by decide))
  have p5 : (poked s3 0x7000 666).regs .rsp = 0x6ff8 := p3
  have r6 := r5.step (.block d3)
  -- the check
  have hcl := two (poked s3 0x7000 666) [.push, .block 0, .block 2] [.block 3] p5
  obtain ⟨code, free, hc⟩ := default_isCheck
  have hd : (poked s3 0x7000 666).retAddr 0 = 0x6ff8 := by rw [State.retAddr, p5]; decide
  have ha : Apart 0x100000 ((poked s3 0x7000 666).retAddr 0) 16 (poked s3 0x7000 666) := by
    rw [hd]; exact hcl ⟨0, [.push, .block 0, .block 2], 8, 0x6ff8⟩ (by simp)
  have hrun := hc.run k5.holds (k5.checkSep ha)
  rw [show (poked s3 0x7000 666).regs .rsp + BitVec.ofInt 64 0 = 0x6ff8 from hd, v5,
    show scan 8 [8] = some 0 by decide] at hrun
  obtain ⟨s7, hx, hck⟩ := hrun
  have q7 := hck.slots k5 hcl
  have r7 := r6.step (.check d4 hreg hc hd hcl hx v5)
  have v7 : s7.mem.read64 0x6ff8 = 8 := (q7 ⟨0, [.push, .block 0, .block 2], 8, 0x6ff8⟩ (by simp)).trans v5
  have w7 : s7.mem.read64 0x7000 = 666 :=
    (q7 ⟨1, [.block 3], 0x401000, 0x7000⟩ (by simp)).trans (read64_write64 _ _ _)
  have r8 := r7.step (.ret ⟨2, Small.ends [recProg.edges[1]] (by decide) (by decide) (by decide)
    (by decide) (by decide +kernel)⟩ v7)
  have r9 := r8.step (.block e2)
  have r10 := r9.step (.hijack ⟨4, Small.ends [recProg.edges[6]] (by decide) (by decide) (by decide)
    (by decide) (by decide +kernel)⟩ (Small.mayReturn (by decide))
    (by show s7.mem.read64 0x7000 ≠ _; rw [w7]; decide))
  rw [← w7]
  exact r10

end Verif
