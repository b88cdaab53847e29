import Verif.Props.PlanMachine

/-!
# C80: example programs and attacks
-/

namespace Verif

namespace Small
variable {p : Small}

/-- Blocks of a small program: `lea rax, [rbx]`, and `ret` at the exits; the stack pointer stays at
the return address. -/
def binary (p : Small) : Binary where
  code b := (leaInsn (4096 + 16 * b) .rax .rbx, leaSem .rax .rbx 0) ::
    if b ∈ p.exits.flatten then [(retInsn (4096 + 16 * b + 8), retSem)] else []
  hin _ _ := -8
  hout _ _ := -8

theorem binary_before (b : Blk) : beforeRet (p.binary.code b) =
    [(leaInsn (4096 + 16 * b) .rax .rbx, leaSem .rax .rbx 0)] := by
  unfold binary beforeRet
  dsimp only
  split <;> rfl

theorem binaryOk (hh : p.height = some (-8)) (frame : Func → Reg) :
    BinaryOk p.binary {} {} p.code p.info (fun _ => {}) p.bfunc (fun _ => {}) frame where
  normal := hg_normal
  dead _ _ := hg_dead
  frame _ _ h := absurd rfl h
  start _ _ _ := rfl
  starts f _ b _ c _ h := by
    have h : 4096 + 16 * b = 4096 + 16 * c := h
    simp only [Nat.add_left_cancel_iff] at h
    exact Nat.eq_of_mul_eq_mul_left (by decide) h
  entryScan _ _ _ _ := nofun
  fixedScan _ _ _ _ := nofun
  exitScan _ _ _ _ := nofun
  before b q hq := by
    simp only [binary, List.mem_cons] at hq
    rcases hq with rfl | hq
    · exact ⟨lea_lawful _ _ _ _, nofun, fun _ _ n => by simp [leaInsn]⟩
    · split at hq
      · rw [List.mem_singleton.mp hq]
        exact ⟨ret_lawful _, nofun, fun _ h => absurd h (by simp [BInsn.movesSP, retInsn])⟩
      · cases hq
  after b q hq := by
    rw [binary_before] at hq
    rw [List.mem_singleton.mp hq]
    exact ⟨lea_lawful _ _ _ _, nofun, nofun, fun _ _ n => by simp [leaInsn]⟩
  short b := by
    simp only [binary]
    split <;> simp
  ends b := by
    rw [binary_before]
    refine ⟨fun q hq => by rw [List.mem_singleton.mp hq]; nofun, ?_⟩
    simp only [binary]
    split
    · exact .inr ⟨_, rfl, rfl⟩
    · exact .inl rfl
  addrs b := by
    simp only [binary]
    split
    · simp [leaInsn, retInsn]
    · simp
  heightIn _ _ _ _ h e := by
    have e : p.height = some h := e
    rw [hh] at e; cases e; rfl
  heightOut _ _ _ _ h e := by
    have e : p.height = some h := e
    rw [hh] at e; cases e; rfl
  entry _ _ := rfl
  exit _ _ _ _ _ := rfl
  edges _ _ := ⟨fun _ _ _ _ => rfl, fun _ _ => rfl⟩

/-- The snippets of the plans. -/
def snip (p : Small) : Func → Ev → Code → State → W → Prop :=
  p.binary.Snippet {} (fun f => (p.sums f).jit {}) p.code p.plan

theorem atHeight_blk {f : Func} {b : Blk} {r : W} {s : State} (h : s.regs .rsp = r) :
    p.binary.AtPush f r (.blk b) s ∧ p.binary.AtCheck f r (.blk b) s := by
  have : AtHeight r (-8) s := by
    unfold AtHeight; rw [h]; bv_omega
  exact ⟨this, this⟩

/-- A push at the beginning of a block. -/
theorem erun_push (h : p.Ok) (hh : p.height = some (-8)) {frame : Func → Reg} {q : XProc} {s : State}
    {a : XAct} {as : List XAct} {l : List W} {g : W} {b : Blk} {k : PushKind}
    (hr : ERun p.sem frame p.snip g q (.run s (a :: as))) (hk : Recorded g l s) (hl : l.length < 100)
    (ht : p.sem.trace a.func (a.done ++ [.push])) (hn : ¬ p.sem.inReg a.func)
    (hm : (.blk b, k) ∈ (p.plan a.func).pushes) (he : s.regs .rsp = a.at_)
    (hc : Clear g (a :: as) 16 s) : ∃ s', ERun p.sem frame p.snip g q
      (.run s' ({ a with done := a.done ++ [.push] } :: as)) ∧
      Recorded g (s.mem.read64 a.at_ :: l) s' ∧ SameSlots (a :: as) s s' ∧ s'.regs .rsp = s.regs .rsp := by
  have hf : a.func ∈ p.code.funcs := And.left (b := ∃ _, _) ht
  obtain ⟨c, hcode, hfit⟩ := C80_pushes (p.binaryOk hh frame) h.built hf hm
  have hfit := hfit _ _ (atHeight_blk he).1
  have hroom : 32 + 8 * l.length + 8 ≤ regionSize := by unfold regionSize; omega
  cases hfit with
  | save k1 => exact absurd k1 hn
  | push k1 hp hle hd =>
    have ha := (hc a (by simp)).mono hle
    rw [← hd] at ha
    obtain ⟨s', hx, hpu⟩ := hp.run (hk.pushSep ha hroom)
    refine ⟨s', hr.step (.snippet ht ⟨_, _, hm, hcode, (atHeight_blk he).1⟩ hc
      (hk.hasRoom.mpr hroom) hx nofun), ?_, hpu.slots hk hroom (hc.mono hle), hpu.same.rsp⟩
    have := hk.push ha hroom hpu
    rwa [hd] at this

/-- A check at the end of a block. -/
theorem erun_check (h : p.Ok) (hh : p.height = some (-8)) {frame : Func → Reg} {q : XProc} {s : State}
    {a : XAct} {as : List XAct} {l : List W} {g : W} {b : Blk} {k : PopKind}
    (hr : ERun p.sem frame p.snip g q (.run s (a :: as))) (hk : Recorded g l s) (hl : l.length < 100)
    (hcalls : NoCallAtCheck {} p.code (p.bfunc a.func))
    (ht : p.sem.trace a.func (a.done ++ [.check])) (hn : ¬ p.sem.inReg a.func)
    (hm : (.blk b, k) ∈ (p.plan a.func).checks) (he : s.regs .rsp = a.at_)
    (hc : Clear g (a :: as) 16 s) :
    match scan (s.mem.read64 a.at_) l with
    | none => ERun p.sem frame p.snip g q .killed
    | some _ => s.mem.read64 a.at_ = a.ra → ∃ s', ERun p.sem frame p.snip g q
        (.run s' ({ a with done := a.done ++ [.check] } :: as)) ∧ SameSlots (a :: as) s s' := by
  have hf : a.func ∈ p.code.funcs := And.left (b := ∃ _, _) ht
  obtain ⟨c, hcode, hfit⟩ := C80_checks (p.binaryOk hh frame) h.built hf hcalls hm
  have hfit := hfit _ _ (atHeight_blk he).2
  have hroom : 32 + 8 * l.length + 8 ≤ regionSize := by unfold regionSize; omega
  cases hfit with
  | compare k1 => exact absurd k1 hn
  | @check d n free k1 hp hle hd =>
    have ha := (hc a (by simp)).mono hle
    rw [← hd] at ha
    have hrun := hp.run hk.holds (hk.checkSep ha)
    rw [show s.regs .rsp + BitVec.ofInt 64 d = a.at_ from hd] at hrun
    cases hs : scan (s.mem.read64 a.at_) l with
    | none =>
      rw [hs] at hrun
      exact hr.step (.trap ht ⟨_, _, hm, hcode, (atHeight_blk he).2⟩ hc (hk.hasRoom.mpr hroom) hrun)
    | some i =>
      rw [hs] at hrun
      obtain ⟨s', hx, hck⟩ := hrun
      exact fun hv => ⟨s', hr.step (.snippet ht ⟨_, _, hm, hcode, (atHeight_blk he).2⟩ hc
        (hk.hasRoom.mpr hroom) hx fun _ => hv), hck.slots hk (hc.mono hle)⟩

end Small

/-- Example for `C80_planned_partial`: the attack of `Props/MachineExamples.lean` with the snippets
of the plan. -/
example (frame : Func → Reg) :
    EProtected goodProg.sem frame goodProg.snip 0x100000 2 ∧
    ERun goodProg.sem frame goodProg.snip 0x100000 (.start 2 0x7000 (sampleState 0x401000 [])) .killed := by
  refine ⟨C80_planned_partial (goodProg.binaryOk rfl frame) goodProg_ok.built
    (goodProg_ok.built.covered (goodProg_ok.noRecursion (by decide +kernel))) goodProg_calls goodProg_tails
    (Small.allIn rfl rfl rfl) _ _, ?_⟩
  have hreg : ¬ goodProg.sem.inReg 2 := by
    change ¬ (useRegFrame {} (some (goodProg.sums 2)) = true); decide +kernel
  have t1 : goodProg.sem.trace 2 ([] ++ [.push]) :=
    Small.starts (b' := 5) [] (by decide) (by decide) (by decide +kernel)
  have t2 : goodProg.sem.trace 2 ([.push] ++ [.block 5]) :=
    Small.starts (b' := 5) [] (by decide) (by decide) (by decide +kernel)
  have t3 : goodProg.sem.trace 2 ([.push, .block 5] ++ [.check]) :=
    Small.starts (b' := 5) [] (by decide) (by decide) (by decide +kernel)
  have e0 : (sampleState 0x401000 []).mem.read64 0x7000 = 0x401000 := by decide
  have r0 : ERun goodProg.sem frame goodProg.snip 0x100000 (.start 2 0x7000 (sampleState 0x401000 []))
    (.run (sampleState 0x401000 []) [⟨2, [], 0x401000, 0x7000⟩]) := by
    rw [XProc.start, e0]; exact .refl _
  obtain ⟨s1, r1, k1, _, p1⟩ := Small.erun_push goodProg_ok rfl r0 sample_recorded (by decide) t1 hreg
    (b := 5) (k := .stack false 0 false) (by decide +kernel) (by decide)
    (clear_of (by decide) (by decide))
  rw [show (XAct.at_ ⟨2, [], 0x401000, 0x7000⟩) = 0x7000 from rfl, e0] at k1
  have p1 : s1.regs .rsp = 0x7000 := p1
  have r2 := r1.step (.block t2)
  have hsp : Spares goodProg.sem frame 0x100000 ⟨2, [.push, .block 5], 0x401000, 0x7000⟩ s1
    (poked s1 0x7000 666) := poked_spares (low_sep (by decide))
  have r3 := r2.step (.work hsp (.inl (Small.danger_write (t := [.push]) t2 (by decide))))
  have hcl : Clear 0x100000 [⟨2, [.push, .block 5], 0x401000, 0x7000⟩] 16 (poked s1 0x7000 666) := by
    refine clear_of ?_ ?_
    · intro x hx
      simp only [List.mem_singleton] at hx
      subst hx
      show s1.regs .rsp ≤ _ ∧ _
      rw [p1]; decide
    · show _ ≤ s1.regs .rsp ∧ s1.regs .rsp ≤ _
      rw [p1]; decide
  have hv : (poked s1 0x7000 666).mem.read64 0x7000 = 666 := read64_write64 _ _ _
  have := Small.erun_check goodProg_ok rfl r3 (hsp.recorded k1) (by decide)
    (goodProg_calls _ (by decide)) t3 hreg (b := 5) (k := .stack false) (by decide +kernel) p1 hcl
  rw [show (XAct.at_ ⟨2, [.push, .block 5], 0x401000, 0x7000⟩) = 0x7000 from rfl, hv,
    show scan 666 [0x401000] = none by decide] at this
  exact this

/-! ## C80 is false in general -/

/-- **C80 fails for recursive programs**: with the snippets of the plan at the places of the plan, a
return goes unchecked to an address of the attacker's choice. -/
theorem C80_refuted : ∃ B co info R T bf plan f, (∀ frame, BinaryOk B {} {} co info R bf (fun _ => {}) frame) ∧
    Built {} [] co info R T bf plan ∧ (∀ f ∈ co.funcs, NoCallAtCheck {} co (bf f)) ∧
    (∀ f ∈ co.funcs, LeftOk [] co T bf f) ∧
    (∀ f ∈ co.funcs, TailsOk co T f) ∧ f ∈ co.funcs ∧
    ∀ frame, ¬ EProtected (semOf co info plan (inRegOf {} T) (staysOf bf)) frame
      (B.Snippet {} (fun f => (T f).jit {}) co plan) 0x100000 f := by
  refine ⟨_, _, _, _, _, _, _, 1, fun frame => recProg.binaryOk rfl frame, recProg_ok.built,
    recProg_calls, Small.allIn rfl rfl rfl, recProg_tails, by decide, ?_⟩
  intro frame hprot
  refine hprot.unchecked (sampleState 0x401000 []) 0x7000 666 sample_recorded ?_
  have hs : recProg.plan 1 = .skipped := Small.skipped_of (by decide +kernel)
  have hreg : ¬ recProg.sem.inReg 0 := by
    change ¬ (useRegFrame {} (some (recProg.sums 0)) = true); decide +kernel
  have hreg1 : ¬ recProg.sem.inReg 1 := by
    change ¬ (useRegFrame {} (some (recProg.sums 1)) = true); decide +kernel
  have e1 : recProg.sem.trace 1 ([] ++ [.block 3]) :=
    Small.starts (b' := 3) [] (by decide) (by decide) (by decide +kernel)
  have e2 : recProg.sem.trace 1 ([.block 3] ++ [.block 4]) :=
    Small.starts (b' := 4) [recProg.edges[6]] (by decide) (by decide) (by decide +kernel)
  have d1 : recProg.sem.trace 0 ([] ++ [.push]) :=
    Small.starts (b' := 0) [] (by decide) (by decide) (by decide +kernel)
  have d2 : recProg.sem.trace 0 ([.push] ++ [.block 0]) :=
    Small.starts (b' := 0) [] (by decide) (by decide) (by decide +kernel)
  have d3 : recProg.sem.trace 0 ([.push, .block 0] ++ [.block 2]) :=
    Small.starts (b' := 2) [recProg.edges[1]] (by decide) (by decide) (by decide +kernel)
  have d4 : recProg.sem.trace 0 ([.push, .block 0, .block 2] ++ [.check]) :=
    Small.starts (b' := 2) [recProg.edges[1]] (by decide) (by decide) (by decide +kernel)
  have r0 : ERun recProg.sem frame recProg.snip 0x100000 (.start 1 0x7000 (sampleState 0x401000 []))
    (.run (sampleState 0x401000 []) [⟨1, [], 0x401000, 0x7000⟩]) := by
    have : (sampleState 0x401000 []).mem.read64 0x7000 = 0x401000 := by decide
    rw [XProc.start, this]; exact .refl _
  have r1 := r0.step (.block e1)
  -- the call
  have sp2 : Spares recProg.sem frame 0x100000 ⟨1, [.block 3], 0x401000, 0x7000⟩
      (sampleState 0x401000 []) (called (sampleState 0x401000 []) 0x6ff8 8) :=
    called_spares (low_sep (by decide)) hreg1
  have r2 := r1.step (.call (h := 0) 0x6ff8
    (Small.calls_skipped (t := []) recProg.edges[5] hs e1 (by decide) (by decide)
      (Small.direct (by decide) (by decide) (by decide +kernel))) sp2 (by
        intro x hx
        simp only [List.mem_singleton] at hx
        subst hx
        exact read64_write64_sep _ _ _ _ (sep_of_le (by decide) (by decide) (by decide))))
  have v2 : (called (sampleState 0x401000 []) 0x6ff8 8).mem.read64 0x6ff8 = 8 := read64_write64 _ _ _
  rw [v2] at r2
  have two : ∀ (s : State) (x y : List Ev), s.regs .rsp = 0x6ff8 →
      Clear 0x100000 [⟨0, x, 8, 0x6ff8⟩, ⟨1, y, 0x401000, 0x7000⟩] 16 s := by
    intro s x y h
    refine clear_of ?_ (by rw [h]; decide)
    intro z hz
    simp only [List.mem_cons, List.not_mem_nil, or_false] at hz
    rw [h]
    rcases hz with rfl | rfl <;> simp
  -- the push
  obtain ⟨s3, r3, k3, q3, p3⟩ := Small.erun_push recProg_ok rfl r2 (sp2.recorded sample_recorded)
    (by decide) d1 hreg (b := 0) (k := .stack false 0 false) (by decide +kernel)
    (called_rsp _ _ _) (two _ _ _ (called_rsp _ _ _))
  rw [called_rsp] at p3
  change Recorded _ [(called (sampleState 0x401000 []) 0x6ff8 8).mem.read64 0x6ff8] _ at k3
  rw [v2] at k3
  have v3 : s3.mem.read64 0x6ff8 = 8 := (q3 ⟨0, [], 8, 0x6ff8⟩ (by simp)).trans v2
  have r4 := r3.step (.block d2)
  -- the attack
  have sp5 : Spares recProg.sem frame 0x100000 ⟨0, [.push, .block 0], 8, 0x6ff8⟩ s3
    (poked s3 0x7000 666) := poked_spares (low_sep (by decide))
  have r5 := r4.step (.work sp5 (.inl (Small.danger_write (t := [.push]) d2 (by decide))))
  have k5 := sp5.recorded k3
  have v5 : (poked s3 0x7000 666).mem.read64 0x6ff8 = 8 := by
    rw [← v3]
    exact read64_write64_sep _ _ _ _ (sep_of_le (by decide) (by decide) (by decide))
  have p5 : (poked s3 0x7000 666).regs .rsp = 0x6ff8 := p3
  have r6 := r5.step (.block d3)
  -- the check
  have hck := Small.erun_check recProg_ok rfl r6 k5 (by decide) (recProg_calls _ (by decide)) d4 hreg
    (b := 2) (k := .stack false) (by decide +kernel) p5 (two _ _ _ p5)
  rw [show (XAct.at_ ⟨0, [.push, .block 0] ++ [.block 2], 8, 0x6ff8⟩) = 0x6ff8 from rfl, v5,
    show scan 8 [8] = some 0 by decide] at hck
  obtain ⟨s7, r7, q7⟩ := hck rfl
  have v7 : s7.mem.read64 0x6ff8 = 8 := (q7 ⟨0, [.push, .block 0, .block 2], 8, 0x6ff8⟩ (by simp)).trans v5
  have w7 : s7.mem.read64 0x7000 = 666 :=
    (q7 ⟨1, [.block 3], 0x401000, 0x7000⟩ (by simp)).trans (read64_write64 _ _ _)
  have r8 := r7.step (.ret ⟨2, Small.ends [recProg.edges[1]] (by decide) (by decide) (by decide)
    (by decide) (by decide +kernel)⟩ v7)
  have r9 := r8.step (.block e2)
  have r10 := r9.step (.hijack ⟨4, Small.ends [recProg.edges[6]] (by decide) (by decide) (by decide)
    (by decide) (by decide +kernel)⟩ (Small.mayReturn (by decide))
    (by show s7.mem.read64 0x7000 ≠ _; rw [w7]; decide))
  rw [← w7]
  exact r10

end Verif
