import Verif.Props.Slip
import Verif.Props.MachineExamples

/-!
# C94: a program which is not protected on processors with AVX-512
-/

namespace Verif

/-! ## The program -/

/-- `mov [r], x` -/
def stInsn (addr : Nat) (r x : Reg) : BInsn :=
  { addr, reads := [.gpr r 8, .gpr x 8], writes := [], writesMemory := true }

def stSem (r x : Reg) : Sem where
  ex s := { s with mem := s.mem.writeN (s.regs r) (s.regs x) 8 }
  touch _ _ := False

theorem st_lawful (addr : Nat) (r x : Reg) : Lawful (stInsn addr r x) (stSem r x) where
  keep _ _ _ := rfl
  mem h := by cases h
  dep X F A s t h hX _ _ := by
    have hr : ¬ X r := fun hr => hX r hr 8 (by simp [stInsn])
    have hx : ¬ X x := fun hx => hX x hx 8 (by simp [stInsn])
    refine ⟨fun y hy => h.regs y fun hyy => hy ⟨hyy, by simp [stInsn], by simp [stInsn]⟩, h.flags, h.gs,
      fun a ha => ?_⟩
    simp only [stSem, Mem.writeN, h.regs _ hr, h.regs _ hx]
    split
    · rfl
    · exact h.mem a ha

/-- A function of one block which saves r15 and r14, stores something to an address it is given,
restores the registers and returns. -/
def slipCode : List (BInsn × Sem) :=
  [(pushInsn 4096 .r15 8, pushSem .r15 8), (pushInsn 4098 .r14 8, pushSem .r14 8),
   (stInsn 4100 .rdi .rsi, stSem .rdi .rsi),
   (popInsn 4103 .r14, popSem .r14), (popInsn 4105 .r15, popSem .r15), (retInsn 4107, retSem)]

/-- Its control flow. -/
def slipProg : Small where
  blocks := [[0]]
  exits := [[0]]
  edges := [{ id := 0, src := 0, trg := 0, type := .ret, sink := true, interproc := true }]
  danger := [0]

theorem slipProg_ok : slipProg.Ok where
  sums := by decide +kernel
  plans := by decide +kernel
  addr := by decide +kernel
  oneCall := by decide +kernel
  entry := by decide +kernel
  closed := by decide +kernel
  ret := by decide +kernel
  exits := by decide +kernel
  handler := by decide +kernel
  nodup := by decide +kernel
  after := by decide +kernel
  resolved := by decide +kernel
  exitIn := by decide +kernel
  nodupEdges := by decide +kernel
  lone := by decide +kernel
  callOut := by decide +kernel

/-- What the block passes find. -/
def slipRegs : RegFacts where
  entryData := ((entryData (slipCode.map Prod.fst)).map fun m => (4096, m)).toList
  exitData := ((exitData (slipCode.map Prod.fst)).map fun m => (4096, m)).toList

def slipSums : Sums := (analyse slipProg.code slipProg.info fun _ => slipRegs).getD fun _ => {}

def slipPlan (f : Func) : Plan :=
  ((instrumentFunction {} [] slipProg.code (fun _ => some (slipSums f, [])) (slipProg.bfunc f) {}).map
    Prod.fst).getD .skipped

/-- The tool's analysis of the program and its plan, with default flags. -/
theorem slip_built : Built {} [] slipProg.code slipProg.info (fun _ => slipRegs) slipSums slipProg.bfunc
    slipPlan where
  code := slipProg_ok.code
  sums := by
    have h : (analyse slipProg.code slipProg.info fun _ => slipRegs).isSome = true := by decide +kernel
    unfold slipSums
    cases ha : analyse slipProg.code slipProg.info fun _ => slipRegs with
    | none => rw [ha] at h; cases h
    | some T => rfl
  light := rfl
  asserts := rfl
  func := slipProg_ok.func
  view := slipProg_ok.view
  left f hf h := by
    have : ∀ f ∈ slipProg.code.funcs, ¬ ((slipProg.bfunc f).noReturn = true ∨
      (slipProg.bfunc f).region ≠ ".text") := by decide +kernel
    exact absurd h (this f hf)
  plans f hf _ _ := by
    have h : ∀ f ∈ slipProg.code.funcs, (instrumentFunction {} [] slipProg.code
      (fun _ => some (slipSums f, [])) (slipProg.bfunc f) {}).isSome = true := by decide +kernel
    refine ⟨[], fun _ => some (slipSums f, []), {}, ?_⟩
    have := h f hf
    cases hr : instrumentFunction {} [] slipProg.code (fun _ => some (slipSums f, [])) (slipProg.bfunc f) {} with
    | none => rw [hr] at this; cases this
    | some r => exact ⟨r.2, rfl, by simp [slipPlan, hr]⟩

/-- Its instructions. -/
def slipBinary : Binary where
  code _ := slipCode
  hin _ _ := -8
  hout _ _ := -8

theorem slip_lookup {v : Option MoveInst} {n : Nat} {m : MoveInst}
    (h : ((v.map fun m => (4096, m)).toList).lookup n = some m) : v = some m := by
  cases v with
  | none => cases h
  | some x =>
    simp only [Option.map_some, Option.toList_some, List.lookup] at h
    split at h
    · exact h
    · cases h

theorem slip_binaryOk (frame : Func → Reg) : BinaryOk slipBinary {} {} slipProg.code slipProg.info
    (fun _ => slipRegs) slipProg.bfunc (fun _ => {}) frame where
  normal := hg_normal
  dead _ _ := hg_dead
  frame _ _ h := absurd rfl h
  start _ _ _ := rfl
  starts f _ b _ c _ h := by
    have h : 4096 + 16 * b = 4096 + 16 * c := h
    simp only [Nat.add_left_cancel_iff] at h
    exact Nat.eq_of_mul_eq_mul_left (by decide) h
  entryScan _ _ _ _ h := slip_lookup h
  fixedScan _ _ _ _ := nofun
  exitScan _ _ _ _ h := slip_lookup h
  before b q hq := by
    simp only [slipBinary, slipCode, List.mem_cons, List.not_mem_nil, or_false] at hq
    rcases hq with rfl | rfl | rfl | rfl | rfl | rfl
    · exact ⟨push_lawful _ _ _, fun _ => push_push8 _, fun h => absurd rfl h⟩
    · exact ⟨push_lawful _ _ _, fun _ => push_push8 _, fun h => absurd rfl h⟩
    · exact ⟨st_lawful _ _ _, nofun, fun _ _ n => by simp [stInsn]⟩
    · exact ⟨pop_lawful _ _, nofun, fun _ h => absurd h (by decide)⟩
    · exact ⟨pop_lawful _ _, nofun, fun _ h => absurd h (by decide)⟩
    · exact ⟨ret_lawful _, nofun, fun _ h => absurd h (by decide)⟩
  after b q hq := by
    have hq : q ∈ slipCode.take 5 := hq
    simp only [slipCode, List.take, List.mem_cons, List.not_mem_nil, or_false] at hq
    rcases hq with rfl | rfl | rfl | rfl | rfl
    · exact ⟨push_lawful _ _ _, nofun, nofun, fun _ h => absurd h (by decide)⟩
    · exact ⟨push_lawful _ _ _, nofun, nofun, fun _ h => absurd h (by decide)⟩
    · exact ⟨st_lawful _ _ _, nofun, nofun, fun _ _ n => by simp [stInsn]⟩
    · exact ⟨pop_lawful _ _, fun _ => ⟨pop_pop8 _ (by decide), by decide⟩, nofun, fun h => absurd rfl h⟩
    · exact ⟨pop_lawful _ _, fun _ => ⟨pop_pop8 _ (by decide), by decide⟩, nofun, fun h => absurd rfl h⟩
  short _ := show 8 * slipCode.length + 8 ≤ 2 ^ 64 by decide
  ends _ := ⟨by
    intro q hq
    have hq : q ∈ slipCode.take 5 := hq
    simp only [slipCode, List.take, List.mem_cons, List.not_mem_nil, or_false] at hq
    rcases hq with rfl | rfl | rfl | rfl | rfl <;> nofun, .inr ⟨_, rfl, rfl⟩⟩
  addrs _ := show (slipCode.map fun p => p.1.addr).Nodup by decide
  heightIn _ _ _ _ h e := by cases e; rfl
  heightOut _ _ _ _ h e := by cases e; rfl
  entry _ _ := rfl
  exit _ _ _ _ _ := rfl
  edges _ _ := ⟨fun _ _ _ _ => rfl, fun _ _ => rfl⟩

theorem slip_calls : ∀ f ∈ slipProg.code.funcs, NoCallAtCheck {} slipProg.code (slipProg.bfunc f) := by
  have h : ∀ f ∈ slipProg.code.funcs, ∀ r ∈ checkFastPath false (slipProg.bfunc f).cfg,
      ∀ e ∈ slipProg.edges, e.src ∈ r.2 → e.type ≠ .call := by decide +kernel
  exact fun f hf => Small.noCallAtCheck (h f hf)

theorem slip_covered : ∀ f ∈ slipProg.code.funcs, CallsCovered slipSums f := by
  have h : ∀ f ∈ slipProg.code.funcs, (slipSums f).callees = [] := by decide +kernel
  intro f hf g hg
  rw [h f hf] at hg
  cases hg

theorem slip_tails : ∀ f ∈ slipProg.code.funcs, TailsOk slipProg.code slipSums f := by
  have key : ∀ e ∈ slipProg.edges, e.type = .ret := by decide
  refine fun f hf => ⟨fun b hb e he hu => ?_, fun b hb e he g hg hj => ?_⟩
  · exact absurd (key e (Small.mem_targets.mp he).1) hu.1.2.2
  · exact absurd (key e (Small.mem_targets.mp he).1) hj.1.2.2

theorem slip_left : ∀ f ∈ slipProg.code.funcs, LeftOk [] slipProg.code slipSums slipProg.bfunc f := by
  have h : ∀ f ∈ slipProg.code.funcs, (slipProg.bfunc f).noReturn = false ∧
    (slipProg.bfunc f).region = ".text" := by decide +kernel
  refine fun f hf => ⟨fun hl => ?_, fun hn => ?_⟩
  · rcases hl with hl | hl
    · exact absurd (h f hf).2 hl
    · cases hl
  · rw [(h f hf).1] at hn; cases hn

/-- What stands behind the check of the program: `pop r14; pop r15; ret`, and anything. -/
def slipAfter (_ : Func) (_ : Code) (bs : Nat → Byte) : Prop :=
  ∃ rest, bs = codeStream (popBytes .r14 ++ popBytes .r15 ++ [0xC3]) rest

abbrev slipSem : ProgSem := semOf slipProg.code slipProg.info slipPlan (inRegOf {} slipSums) (staysOf slipProg.bfunc)

abbrev slipSnip : Func → Ev → Code → State → W → Prop :=
  slipBinary.Snippet {} (fun f => (slipSums f).jit {}) slipProg.code slipPlan

theorem slip_trace {t : List Ev} (h : t <+: (slipPlan 0).trace 0 []) : slipSem.trace 0 t := by
  obtain ⟨t', ht⟩ := h
  exact ⟨by decide, t', [], 0, .nil _, ht⟩

/-! ## The attack -/

/-- The function after it has saved r15 and r14. -/
def slipEntered : State := runSem (slipCode.take 2) (sampleState 0x401000 [])

/-- **C94 is false in general.**  A program which meets all conditions of C80 and is instrumented with
default flags: between push and check the return address is overwritten, the check fails, and the
program goes on. -/
theorem C94_refuted : ∃ B co info R T bf plan f after,
    (∀ frame, BinaryOk B {} {} co info R bf (fun _ => {}) frame) ∧
    Built {} [] co info R T bf plan ∧ (∀ f ∈ co.funcs, CallsCovered T f) ∧
    (∀ f ∈ co.funcs, NoCallAtCheck {} co (bf f)) ∧ (∀ f ∈ co.funcs, TailsOk co T f) ∧
    (∀ f ∈ co.funcs, LeftOk [] co T bf f) ∧ f ∈ co.funcs ∧
    (∀ frame, EProtected (semOf co info plan (inRegOf {} T) (staysOf bf)) frame
      (B.Snippet {} (fun f => (T f).jit {}) co plan) 0x100000 f) ∧
    ∀ frame, ∃ s0 s a, Recorded 0x100000 [] s0 ∧
      VRun (semOf co info plan (inRegOf {} T) (staysOf bf)) frame
        (B.Snippet {} (fun f => (T f).jit {}) co plan) after 0x100000
        (.on (.start f 0x7000 s0)) (.slipped s [a]) ∧
      a.ra = 0x401000 ∧ s.mem.read64 a.at_ = 666 := by
  refine ⟨slipBinary, _, _, _, slipSums, _, slipPlan, 0, slipAfter, slip_binaryOk, slip_built, slip_covered,
    slip_calls, slip_tails, slip_left, by decide, fun frame => C80_planned_partial (slip_binaryOk frame)
    slip_built slip_covered slip_calls slip_tails slip_left _ _, fun frame => ?_⟩
  refine ⟨sampleState 0x401000 [], ?_⟩
  have hreg : ¬ slipSem.inReg 0 := by
    change ¬ (useRegFrame {} (some (slipSums 0)) = true); decide +kernel
  have t1 : slipSem.trace 0 ([] ++ [.push]) := slip_trace (by decide +kernel)
  have t2 : slipSem.trace 0 ([.push] ++ [.block 0]) := slip_trace (by decide +kernel)
  have t3 : slipSem.trace 0 ([.push, .block 0] ++ [.check]) := slip_trace (by decide +kernel)
  have e0 : (sampleState 0x401000 []).mem.read64 0x7000 = 0x401000 := by decide
  have r0 : VRun slipSem frame slipSnip slipAfter 0x100000 (.on (.start 0 0x7000 (sampleState 0x401000 [])))
    (.on (.run (sampleState 0x401000 []) [⟨0, [], 0x401000, 0x7000⟩])) := by
    rw [XProc.start, e0]; exact .refl _
  -- the two pushes of the program
  have v1 : slipEntered.mem.read64 0x7000 = 0x401000 := by decide
  have p1 : slipEntered.regs .rsp = 0x6ff0 := by decide
  have hsp1 : Spares slipSem frame 0x100000 ⟨0, [], 0x401000, 0x7000⟩ (sampleState 0x401000 []) slipEntered := by
    refine ⟨rfl, fun x hx => ?_, fun h => absurd h hreg⟩
    have h1 := (push_push8 .r15 (sampleState 0x401000 [])).2 x
      (sep_not_inRange (low_sep (p := 0x6ff8) (by decide)).symm hx)
    have h2 := (push_push8 .r14 ((pushSem .r15 8).ex (sampleState 0x401000 []))).2 x
      (sep_not_inRange (low_sep (p := 0x6ff0) (by decide)).symm hx)
    exact h2.trans h1
  have r1 := r0.step (.step (.work hsp1 (.inr (by
    intro x hx
    rw [List.mem_singleton.1 hx]
    exact v1.trans e0.symm))) nofun)
  have k1 : Recorded 0x100000 [] slipEntered := hsp1.recorded sample_recorded
  -- the push
  have hm : (.insn 0 4100, .stack true 0 false) ∈ (slipPlan 0).pushes := by decide +kernel
  obtain ⟨c, hcode, hfit⟩ := C80_pushes (slip_binaryOk frame) slip_built (by decide) hm
  have hat : slipBinary.AtPush 0 0x7000 (.insn 0 4100) slipEntered :=
    ⟨slipCode.take 2, _, _, _, rfl, rfl, atHeight_entry.2 rfl, rfl⟩
  have hc1 : Clear 0x100000 [⟨0, [], 0x401000, 0x7000⟩] 16 slipEntered := by
    refine clear_of ?_ (by rw [p1]; decide)
    intro x hx
    rw [List.mem_singleton.1 hx, p1]; decide
  have hroom : 32 + 8 * ([] : List W).length + 8 ≤ regionSize := by decide
  have hpush : ∃ s2, Exits c slipEntered s2 ∧ Recorded 0x100000 [0x401000] s2 ∧
      SameSlots [⟨0, [], 0x401000, 0x7000⟩] slipEntered s2 ∧ s2.regs .rsp = 0x6ff0 := by
    have hfit := hfit _ _ hat
    cases hfit with
    | save k1 => exact absurd k1 hreg
    | push _ hp hle hd =>
      have ha := (hc1 _ (List.mem_singleton.2 rfl)).mono hle
      rw [← hd] at ha
      obtain ⟨s', hx, hpu⟩ := hp.run (k1.pushSep ha hroom)
      refine ⟨s', hx, ?_, hpu.slots k1 hroom (hc1.mono hle), hpu.same.rsp.trans p1⟩
      have := k1.push ha hroom hpu
      rwa [hd, v1] at this
  obtain ⟨s2, hx2, k2, q2, p2⟩ := hpush
  have r2 := r1.step (.step (.snippet t1 ⟨_, _, hm, hcode, hat⟩ hc1 (k1.hasRoom.mpr hroom) hx2 nofun) nofun)
  have r3 := r2.step (.step (.block t2) nofun)
  -- the attack
  have hsp3 : Spares slipSem frame 0x100000 ⟨0, [.push, .block 0], 0x401000, 0x7000⟩ s2
    (poked s2 0x7000 666) := poked_spares (low_sep (by decide))
  have hdanger : slipSem.danger 0 ([.push] ++ [.block 0]) :=
    .inl ⟨t2, [.push], 0, rfl, { addr := 4096, writesMemory := true, outs := [.unknown] },
      by simp [Small.info, slipProg], rfl, rfl, .unknown, by simp, .inl rfl⟩
  have r4 := r3.step (.step (.work hsp3 (.inl hdanger)) nofun)
  have k4 := hsp3.recorded k2
  have v4 : (poked s2 0x7000 666).mem.read64 0x7000 = 666 := read64_write64 _ _ _
  have p4 : (poked s2 0x7000 666).regs .rsp = 0x6ff0 := p2
  have hc4 : Clear 0x100000 [⟨0, [.push, .block 0], 0x401000, 0x7000⟩] 16 (poked s2 0x7000 666) := by
    refine clear_of ?_ (by rw [p4]; decide)
    intro x hx
    rw [List.mem_singleton.1 hx, p4]; decide
  -- the check
  have hm' : (.insn 0 4103, .stack true) ∈ (slipPlan 0).checks := by decide +kernel
  obtain ⟨code, hc, hslip⟩ := C93_slips (fl := {}) hg_normal (a := .r14) (b := .r15) (by decide) (by decide)
    (by decide) ((slipCode.take 3).map Prod.fst) (p := 4103) (q := 4105) (r := 4107) (by decide)
    (sm := (slipSums 0).jit {}) (blockStart := 4096) (by decide +kernel) 4104
  have hat' : slipBinary.AtCheck 0 0x7000 (.insn 0 4103) (poked s2 0x7000 666) := by
    refine ⟨slipCode.take 3, _, [_], rfl, rfl, ?_⟩
    refine atHeight_entry.2 ?_
    show (poked s2 0x7000 666).regs .rsp + 8 + 8 = 0x7000
    rw [p4]; decide
  have ha4 : Apart 0x100000 0x7000 0 (poked s2 0x7000 666) :=
    (hc4 _ (List.mem_singleton.2 rfl)).mono (by decide)
  have hv : (poked s2 0x7000 666).regs .rsp + 16 = 0x7000 := by rw [p4]; decide
  obtain ⟨s5, ⟨⟨n, hrun⟩, hvec⟩, hsame, _⟩ := hslip (poked s2 0x7000 666) [0x401000] k4.holds
    (by rw [hv]; exact k4.checkSep ha4) (by rw [hv, v4]; decide) (by rw [hv, v4]; decide) fun _ => 0x90
  refine ⟨s5, _, sample_recorded, r4.step (.slip t3 ⟨_, _, hm', hc, hat'⟩ hc4 ?_ hrun ⟨fun _ => 0x90, rfl⟩ ?_), rfl, ?_⟩
  · exact k4.hasRoom.mpr (by decide)
  · rw [hvec]; nofun
  · refine (read64_of_sep (b := (poked s2 0x7000 666).gs) (n := 8) (fun x hx => hsame.mem x ?_) ?_).trans v4
    · intro p hp
      rw [List.mem_singleton.1 hp]
      exact hx
    · rw [k4.gs]
      exact sep_of_le (by decide) (by decide) (by decide)

theorem slip_push_code {pl : Place} {k : PushKind} {code : Code} (hm : (pl, k) ∈ (slipPlan 0).pushes)
    (hc : k.emit {} ((slipSums 0).jit {}) slipProg.code pl = some code) : behind code = none := by
  have h : ∀ x ∈ (slipPlan 0).pushes, (x.2.emit {} ((slipSums 0).jit {}) slipProg.code x.1).bind behind = none := by
    decide +kernel
  have := h _ hm
  rwa [hc] at this

theorem slip_check_code {pl : Place} {k : PopKind} {code : Code} (hm : (pl, k) ∈ (slipPlan 0).checks)
    (hc : k.emit {} ((slipSums 0).jit {}) slipProg.code pl = some code) : (behind code).bind codeBytes = some [] := by
  have h : ∀ x ∈ (slipPlan 0).checks, (x.2.emit {} ((slipSums 0).jit {}) slipProg.code x.1).bind
      (fun c => (behind c).bind codeBytes) = some [] := by decide +kernel
  have := h _ hm
  rwa [hc] at this

/-- **C94: the checks of this program are worthless on such a processor.**  No execution of it, whatever is
overwritten, ends with a failing check. -/
theorem C94_never_stops (frame : Func → Reg) {f : Func} {p : W} {s0 : State} :
    ¬ VRun slipSem frame slipSnip slipAfter 0x100000 (.on (.start f p s0)) (.on .killed) := by
  have key : ∀ q r, VRun slipSem frame slipSnip slipAfter 0x100000 q r → q ≠ .on .killed → r ≠ .on .killed := by
    intro q r h hq
    induction h with
    | refl => exact hq
    | step _ h ih =>
      cases h with
      | step _ h => exact fun e => h (VProc.on.inj e)
      | slip => nofun
      | @sigill s s' a as ev code n bs ht hs _ _ _ ha hb =>
        exfalso
        have hf : a.func ∈ slipProg.code.funcs := And.left (b := ∃ _, _) ht
        have hf : a.func = 0 := by
          have h : ∀ f ∈ slipProg.code.funcs, f = 0 := by decide
          exact h _ hf
        rw [hf] at hs
        cases ev with
        | block => exact hs
        | push =>
          obtain ⟨pl, k, hm, hc, _⟩ := hs
          rw [atByte, slip_push_code hm hc] at hb
          cases hb
        | check =>
          obtain ⟨pl, k, hm, hc, _⟩ := hs
          obtain ⟨rest, rfl⟩ := ha
          have h := slip_check_code hm hc
          cases hk : behind code with
          | none => rw [hk] at h; cases h
          | some k' =>
            rw [hk] at h
            rw [atByte_of hk h, stream_nil, C93_pops (by decide) (by decide), if_pos (by decide)] at hb
            cases hb
  exact fun h => key _ _ h nofun rfl

/-! ## Examples -/

/-- A program without moved checks is protected whatever stands behind its snippets. -/
theorem goodProg_bare (after : Func → Code → (Nat → Byte) → Prop) :
    BareOk {} (fun f => (goodProg.sums f).jit {}) goodProg.code goodProg.plan after := by
  intro f hf pl k code hm hc he bs _
  have h : ∀ f ∈ goodProg.code.funcs, ∀ x ∈ (goodProg.plan f).checks, x.2 = .stack false := by decide +kernel
  have hk : k = .stack false := h f hf _ hm
  subst hk
  have hs : SureSigill code := by
    cases pl with
    | edge => cases hc
    | blk b | insn b =>
      refine (C93_stack_partial (fl := {}) (by decide) (by decide) hc).resolve_right ?_
      rintro ⟨_, _, ⟨h, _⟩ | ⟨h, _⟩⟩ <;> cases h
  have := hs bs
  rw [he bs] at this
  exact Option.some.inj this

example (frame : Func → Reg) (after : Func → Code → (Nat → Byte) → Prop) :
    VProtected goodProg.sem frame goodProg.snip after 0x100000 2 ∧ (goodProg.plan 2).checks ≠ [] :=
  ⟨C94_protected_partial (goodProg.binaryOk rfl frame) goodProg_ok.built
    (goodProg_ok.built.covered (goodProg_ok.noRecursion (by decide +kernel))) goodProg_calls goodProg_tails
    (Small.allIn rfl rfl rfl) (goodProg_bare after) 2, by decide +kernel⟩

/-- The program of the attack is protected if its check is followed by other bytes, as those of
`pop rbx`. -/
example (frame : Func → Reg) : VProtected slipSem frame slipSnip
    (fun _ _ bs => ∃ rest, bs = codeStream (popBytes .rbx ++ []) rest) 0x100000 0 :=
  C94_protected_partial (slip_binaryOk frame) slip_built slip_covered slip_calls slip_tails slip_left
    (fun _ _ _ _ _ _ _ _ _ ⟨rest, h⟩ => h ▸ C93_pop_low (by decide) [] rest) 0

end Verif
