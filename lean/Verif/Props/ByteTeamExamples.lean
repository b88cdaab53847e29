import Verif.Props.ByteTeam
import Verif.Props.SignalTeamRun
import Verif.Props.RunMachineExamples
import Verif.Props.MultiExamples
import Verif.Props.SlipExamples

/-! # C119: programs of which the bytes are executed, and attacks -/

namespace Verif

/-! ## Executing the bytes of a snippet -/

section
variable {m : ProgSem} {frame : Func → Reg} {snip : Func → Ev → Code → State → W → Prop} {avx : Bool}
  {text : W → Byte} {g : Nat → W}

/-- The only thread of a process executes instructions of a snippet. -/
theorem executes_trail {x x' : W} {s1 s' : State} {b : W} {n : Nat}
    (h : Executes avx text (Inside b n) x s1 x' s') (hend : Inside b n x' ∨ x' = b + BitVec.ofNat 64 n)
    {p0 : ByteProc} {mem : Mem} {T : Nat → Option Task} {ps : List ByteProc} {i : Nat} {ev : Ev} {s0 s : State}
    {a : XAct} {as : List XAct} (hs : s.over mem = s1) (hT : T i = some (.busy b n x ev s0 s a as))
    (hj : ∀ j, j ≠ i → T j = none) (ht : Trail (ByteStep m frame snip avx text g) p0 (.run mem T :: ps)) :
    ∃ t ps', Trail (ByteStep m frame snip avx text g) p0
        (.run s'.mem (setAt T i (some (.busy b n x' ev s0 t a as))) :: ps') ∧ t.over s'.mem = s' := by
  induction h generalizing mem T ps s with
  | @refl x _ =>
    subst hs
    have : setAt T i (some (.busy b n x ev s0 s a as)) = T := by
      funext j
      by_cases e : j = i
      · rw [e, hT]; simp [setAt]
      · simp [setAt, e]
    exact ⟨s, ps, by rw [this]; exact ht, rfl⟩
  | @step x s1 x1 s2 x2 s3 hp he h ih =>
    subst hs
    have hin : Inside b n x1 ∨ x1 = b + BitVec.ofNat 64 n := by
      cases h with
      | refl => exact hend
      | step hp _ _ => exact .inl hp
    have ho : Task.Others g T i mem s2.mem := fun j w hj' hw => by rw [hj j hj'] at hw; cases hw
    obtain ⟨t, ps', h1, h2⟩ := ih hend (s := s2) rfl (T := setAt T i (some (.busy b n x1 ev s0 s2 a as))) (by simp [setAt])
      (fun j hj' => by simp [setAt, hj', hj j hj']) (ht.step (.instr hT hp he hin ho))
    refine ⟨t, ps', ?_, h2⟩
    have : setAt (setAt T i (some (.busy b n x1 ev s0 s2 a as))) i (some (.busy b n x2 ev s0 t a as)) =
        setAt T i (some (.busy b n x2 ev s0 t a as)) := by
      funext j
      by_cases e : j = i <;> simp [setAt, e]
    rwa [this] at h1

/-- The last instruction of an execution. -/
theorem executes_last {P : W → Prop} {x x' : W} {s s' : State} (h : Executes avx text P x s x' s') (hx : P x)
    (hx' : ¬ P x') : ∃ y t, P y ∧ Executes avx text P x s y t ∧ executeAt avx text y t = .next x' s' := by
  induction h with
  | refl => exact absurd hx hx'
  | @step x s x1 s1 _ _ hp he h ih =>
    cases h with
    | refl => exact ⟨x, s, hp, .refl, he⟩
    | step hp' he' h' =>
      obtain ⟨y, t, h1, h2, h3⟩ := ih hp' hx'
      exact ⟨y, t, h1, .step hp he h2, h3⟩

end

/-! ## Whole programs -/

section
variable {fl : InstrFlags} {skip : List Nat} {jf : JitFlags} {os : List BObject} {res : List (BFunc × Plan)}
  {d : BObject → ObjData} {x : BObject → MachineData} {who : Func → Part fl os × Func} {binds : List Char → Func → Prop}
  {l : BObject → List (BFunc × Plan)}

/-- **C119, a run of the tool.** Missing: as in `C101_threads_partial`. -/
theorem C119_run_partial (hl : ∀ o ∈ os, DoneTo fl skip os res o (l o)) (ha : fl.asserts = true)
    (hs : ∀ o ∈ os, Considered fl o → SuitableMachine fl skip jf o (d o) (x o))
    (hb : ToolBinds d who binds) {avx : Bool} {text : W → Byte}
    (hu : ByteUndefined (toolSnip jf d x l who) avx text) (g : Nat → W) :
    ByteProtected (toolSem fl os d l who binds) (toolFrame x who) (toolSnip jf d x l who) avx text g :=
  C119_bytes hu (C101_threads_partial hl ha hs hb g)

end

/-- **C119, `main`.** If the tool's `main` returns 0, the program consisting of all code objects of the binary
which the tool considers is protected when its threads execute the bytes which the tool has inserted, wherever
Dyninst has put them, on every processor without AVX-512.  Missing: as in `C101_main_partial`. -/
theorem C119_main_partial {h : Host} {fl : ToolFlags} {binary : String} {rest : List String}
    {res : List (BFunc × Plan)} {st : Stats} {w : Option String} {os : List BObject}
    {d : BObject → ObjData} {x : BObject → MachineData} {who : Func → Part fl.instr os × Func}
    {binds : List Char → Func → Prop} (e : toolMain h fl (binary :: rest) = .zero res st w)
    (hob : h.opens binary = some os) (ha : fl.instr.asserts = true)
    (hs : ∀ o ∈ os, Considered fl.instr o →
      SuitableMachine fl.instr (skipsOf h fl.skipList) fl.jit o (d o) (x o)) (hb : ToolBinds d who binds) :
    ∃ l : BObject → List (BFunc × Plan),
      (∀ o ∈ os, DoneTo fl.instr (skipsOf h fl.skipList) os res o (l o)) ∧
      ∀ text g, ByteProtected (toolSem fl.instr os d l who binds) (toolFrame x who)
        (toolSnip fl.jit d x l who) false text g := by
  obtain ⟨l, hl, h1, _⟩ := C101_main_partial e hob ha hs hb
  exact ⟨l, hl, fun text g => C119_bytes nofun (h1 g)⟩

/-- Example for `C119_main_partial`. -/
example (frame : Func → Reg) : ∃ res st w, toolMain twoHost { instr := libFlags } ["/bin/prog"] = .zero res st w ∧
    ∃ l : BObject → List (BFunc × Plan), ∀ text g,
      ByteProtected (toolSem libFlags twoObjects twoData l twoWho twoBinds)
        (toolFrame (twoMachine frame) twoWho) (toolSnip {} twoData (twoMachine frame) l twoWho) false text g := by
  obtain ⟨res, st, h⟩ := twoHost_run
  have hb : ToolBinds twoData twoWho twoBinds := two_bind
  obtain ⟨l, _, h2⟩ := C119_main_partial (fl := { instr := libFlags }) (os := twoObjects) (d := twoData)
    (x := twoMachine frame) (who := twoWho) (binds := twoBinds) h (by simp [twoHost]) rfl
    (fun o ho _ => two_suitableMachine frame o ho) hb
  exact ⟨res, st, _, h, l, h2⟩

/-- Bytes at two addresses, and anything elsewhere. -/
def textOf (l : List (Nat × List Byte)) (x : W) : Byte :=
  match l.find? fun p => p.1 ≤ x.toNat ∧ x.toNat < p.1 + p.2.length with
  | some p => p.2.getD (x.toNat - p.1) 0
  | none => 0x90

theorem stands_of {text : W → Byte} {a : W} {bs : List Byte}
    (h : ∀ i, i < bs.length → text (a + BitVec.ofNat 64 i) = bs.getD i 0) : Stands text a bs := by
  intro i hi
  rw [h i hi]
  simp [List.getD, List.getElem?_eq_getElem hi]

theorem setAt_again {α : Type} (T : Nat → α) (i : Nat) (a b : α) : setAt (setAt T i a) i b = setAt T i b := by
  funext j
  by_cases e : j = i <;> simp [setAt, e]

/-- The bytes of the push of `tryProg`. -/
def tryBytes : List Byte := (assemble tryPush).getD []
def tryText : W → Byte := textOf [(0x500000, tryBytes)]

theorem try_bytes : assemble tryPush = some tryBytes := by decide +kernel
theorem try_length : tryBytes.length = 38 := by decide +kernel
theorem try_stands : Stands tryText 0x500000 tryBytes := stands_of (by rw [try_length]; decide +kernel)

/-- Example for `C119_bytes`: a thread of the protected program has executed the bytes of its push, and then
its return address is recorded. -/
theorem C119_example (frame : Func → Reg) (avx : Bool) :
    ByteProtected tryProg.excSem frame tryProg.snip false tryText twoRegions ∧
    ∃ mem ps t, Trail (ByteStep tryProg.excSem frame tryProg.snip avx tryText twoRegions) (.run twoMem fun _ => none)
      (.run mem (setAt (fun _ => none) 0 (some (.own t [⟨2, [.push], 0x401000, 0x7000⟩]))) :: ps) ∧
      Recorded 0x100000 [0x401000] (t.over mem) := by
  refine ⟨C119_bytes nofun (tryProg_team frame), ?_⟩
  have e1 : oneState.mem.read64 0x7000 = 0x401000 := by decide
  have r1 := (Trail.start (step := ByteStep tryProg.excSem frame tryProg.snip avx tryText twoRegions)
    (p := .run twoMem fun _ => none)).step (.spawn (i := 0) 2 0x7000 rfl one_recorded (fun _ _ _ h => by cases h))
  rw [e1] at r1
  have hc : Clear 0x100000 [⟨2, [], 0x401000, 0x7000⟩] 16 oneState := one_clear (by decide)
  have r2 := r1.step (.begin (i := 0) (b := 0x500000) (n := 38) (setAt_same _ _ _) tryProg_pushes
    (tryPush_snip (by decide)) ⟨tryBytes, try_bytes, try_stands, try_length, by decide⟩ hc
    (one_recorded.hasRoom.mpr (by decide)))
  rw [setAt_again] at r2
  have hfit := snippets_fit (tryProg.binaryOk rfl frame) tryProg_ok.built tryProg_calls
    (And.left (b := ∃ _, _) tryProg_pushes) (tryPush_snip (s := oneState) (R := 0x7000) (by decide))
  have hreg : ¬ tryProg.excSem.inReg 2 := by
    change ¬ (useRegFrame {} (some (tryProg.sums 2)) = true); decide +kernel
  cases hfit with
  | save k1 => exact absurd k1 hreg
  | push _ hp hle hd =>
    have ha := (hc _ (List.mem_singleton.2 rfl)).mono hle
    rw [← hd] at ha
    obtain ⟨s', hx, hpu⟩ := hp.run (one_recorded.pushSep ha (by decide))
    have hk := one_recorded.push ha (by decide) hpu
    rw [hd, e1] at hk
    have hlv := leaves_of_exits avx try_bytes try_stands hx
    rw [try_length] at hlv
    obtain ⟨t, ps, r3, ht⟩ := executes_trail hlv (.inr rfl) (s := oneState) rfl (setAt_same _ _ _)
      (fun j hj => by simp [setAt, hj]) r2
    rw [setAt_again] at r3
    have r4 := r3.step (.finish (i := 0) (setAt_same _ _ _) nofun)
    rw [setAt_again] at r4
    exact ⟨_, _, t, r4, by rw [ht]; exact hk⟩

/-! ## On processors with AVX-512 -/

/-- The push and the check of the program of C94, and what stands behind the check: `pop r14; pop r15; ret`. -/
def slipPushCode : Code := (PushKind.emit {} ((slipSums 0).jit {}) slipProg.code (.stack true 0 false) (.insn 0 4100)).getD []
def slipCheckCode : Code := (PopKind.emit {} ((slipSums 0).jit {}) slipProg.code (.stack true) (.insn 0 4103)).getD []
def slipPushBytes : List Byte := (assemble slipPushCode).getD []
def slipCheckBytes : List Byte := (assemble slipCheckCode).getD []
def slipText : W → Byte := textOf [(0x500000, slipPushBytes),
  (0x600000, slipCheckBytes ++ (popBytes .r14 ++ popBytes .r15 ++ [0xC3]))]

theorem slip_push_bytes : assemble slipPushCode = some slipPushBytes := by decide +kernel
theorem slip_push_length : slipPushBytes.length = 30 := by decide +kernel
theorem slip_check_bytes : assemble slipCheckCode = some slipCheckBytes := by decide +kernel
theorem slip_check_length : slipCheckBytes.length = 49 := by decide +kernel
theorem slip_push_stands : Stands slipText 0x500000 slipPushBytes := stands_of (by rw [slip_push_length]; decide +kernel)
theorem slip_check_stands : Stands slipText 0x600000 slipCheckBytes :=
  stands_of (by rw [slip_check_length]; decide +kernel)

theorem slip_team (frame : Func → Reg) (g : Nat → W) : TeamProtected slipSem frame slipSnip Needs g :=
  (built_sound slip_built slip_calls slip_covered slip_tails slip_left).team (fun _ _ _ _ _ _ ht h =>
    snippets_fit (slip_binaryOk frame) slip_built slip_calls (And.left (b := ∃ _, _) ht) h) g

/-- **C119 needs its condition.**  The program of C94 is protected when it is executed with lists of instructions,
or its bytes on a processor without AVX-512.  With AVX-512, a thread whose return address is overwritten gets out
of the bytes of the check and beyond their end. -/
theorem C119_refuted_avx : ∃ m snip text g, (∀ frame, TeamProtected m frame snip Needs g) ∧
    (∀ frame, ByteProtected m frame snip false text g) ∧ ∀ frame, ∃ mem0 ps,
      Trail (ByteStep m frame snip true text g) (.run mem0 fun _ => none) (.strayed 0 :: ps) := by
  refine ⟨slipSem, slipSnip, slipText, fun _ => 0x100000, fun frame => slip_team frame _,
    fun frame => C119_bytes nofun (slip_team frame _), fun frame => ⟨(sampleState 0x401000 []).mem, ?_⟩⟩
  have hreg : ¬ slipSem.inReg 0 := by
    change ¬ (useRegFrame {} (some (slipSums 0)) = true); decide +kernel
  have t1 : slipSem.trace 0 ([] ++ [.push]) := slip_trace (by decide +kernel)
  have t2 : slipSem.trace 0 ([.push] ++ [.block 0]) := slip_trace (by decide +kernel)
  have t3 : slipSem.trace 0 ([.push, .block 0] ++ [.check]) := slip_trace (by decide +kernel)
  have e0 : (sampleState 0x401000 []).mem.read64 0x7000 = 0x401000 := by decide
  have alone : ∀ {w : Option Task} {mem mem' : Mem},
      Task.Others (fun _ => 0x100000) (setAt (fun _ => none) 0 w) 0 mem mem' :=
    fun j w hj hw => by simp [setAt, hj] at hw
  have alone' : ∀ {w : Option Task} (j : Nat), j ≠ 0 → setAt (fun _ => none) 0 w j = none :=
    fun j hj => by simp [setAt, hj]
  have r0 := (Trail.start (step := ByteStep slipSem frame slipSnip true slipText fun _ => 0x100000)
    (p := .run (sampleState 0x401000 []).mem fun _ => none)).step
      (.spawn (i := 0) 0 0x7000 rfl sample_recorded (fun _ _ _ h => by cases h))
  rw [e0] at r0
  -- the two pushes of the program
  have v1 : slipEntered.mem.read64 0x7000 = 0x401000 := by decide
  have p1 : slipEntered.regs .rsp = 0x6ff0 := by decide
  have hsp1 : Spares slipSem frame 0x100000 ⟨0, [], 0x401000, 0x7000⟩ (sampleState 0x401000 []) slipEntered := by
    refine ⟨rfl, fun x hx => ?_, fun h => absurd h hreg⟩
    have h1 := (push_push8 .r15 (sampleState 0x401000 [])).2 x
      (sep_not_inRange (low_sep (p := 0x6ff8) (by decide)).symm hx)
    have h2 := (push_push8 .r14 ((pushSem .r15 8).ex (sampleState 0x401000 []))).2 x
      (sep_not_inRange (low_sep (p := 0x6ff0) (by decide)).symm hx)
    exact h2.trans h1
  have r1 := r0.step (.own (i := 0) (setAt_same _ _ _) (.step (.work hsp1 (.inr (by
    intro x hx
    rw [List.mem_singleton.1 hx]
    exact v1.trans e0.symm)))) alone)
  rw [setAt_again] at r1
  have k1 : Recorded 0x100000 [] slipEntered := hsp1.recorded sample_recorded
  -- the push
  have hm : (.insn 0 4100, .stack true 0 false) ∈ (slipPlan 0).pushes := by decide +kernel
  obtain ⟨c, hcode, hfit⟩ := C80_pushes (slip_binaryOk frame) slip_built (by decide) hm
  have hce : c = slipPushCode := by rw [slipPushCode]; simp only [hcode, Option.getD_some]
  subst hce
  have hat : slipBinary.AtPush 0 0x7000 (.insn 0 4100) slipEntered :=
    ⟨slipCode.take 2, _, _, _, rfl, rfl, atHeight_entry.2 rfl, rfl⟩
  have hc1 : Clear 0x100000 [⟨0, [], 0x401000, 0x7000⟩] 16 slipEntered := by
    refine clear_of ?_ (by rw [p1]; decide)
    intro x hx
    rw [List.mem_singleton.1 hx, p1]; decide
  have hroom : 32 + 8 * ([] : List W).length + 8 ≤ regionSize := by decide
  have hpush : ∃ s2, Exits slipPushCode slipEntered s2 ∧ Recorded 0x100000 [0x401000] s2 ∧
      s2.regs .rsp = 0x6ff0 := by
    have hfit := hfit _ _ hat
    cases hfit with
    | save k1 => exact absurd k1 hreg
    | push _ hp hle hd =>
      have ha := (hc1 _ (List.mem_singleton.2 rfl)).mono hle
      rw [← hd] at ha
      obtain ⟨s', hx, hpu⟩ := hp.run (k1.pushSep ha hroom)
      refine ⟨s', hx, ?_, hpu.same.rsp.trans p1⟩
      have := k1.push ha hroom hpu
      rwa [hd, v1] at this
  obtain ⟨s2, hx2, k2, p2⟩ := hpush
  have b1 := r1.step (.begin (i := 0) (b := 0x500000) (n := 30) (setAt_same _ _ _) t1 ⟨_, _, hm, hcode, hat⟩
    ⟨_, slip_push_bytes, slip_push_stands, slip_push_length, by decide⟩ hc1 (k1.hasRoom.mpr hroom))
  rw [setAt_again] at b1
  have hlv := leaves_of_exits true slip_push_bytes slip_push_stands hx2
  rw [slip_push_length] at hlv
  obtain ⟨u, ps2, b2, hu2⟩ := executes_trail hlv (.inr rfl) (s := slipEntered) rfl (setAt_same _ _ _) alone' b1
  rw [setAt_again] at b2
  have r2 := b2.step (.finish (i := 0) (setAt_same _ _ _) nofun)
  rw [setAt_again] at r2
  have r3 := r2.step (.own (i := 0) (setAt_same _ _ _) (.step (.block t2)) alone)
  rw [setAt_again, hu2] at r3
  -- the attack
  have hsp3 : Spares slipSem frame 0x100000 ⟨0, [.push, .block 0], 0x401000, 0x7000⟩ s2
    (poked s2 0x7000 666) := poked_spares (low_sep (by decide))
  have hdanger : slipSem.danger 0 ([.push] ++ [.block 0]) :=
    .inl ⟨t2, [.push], 0, rfl, { addr := 4096, writesMemory := true, outs := [.unknown] },
      by simp [Small.info, slipProg], rfl, rfl, .unknown, by simp, .inl rfl⟩
  have r4 := r3.step (.own (i := 0) (setAt_same _ _ _) (.step (.work hsp3 (.inl hdanger))) alone)
  rw [setAt_again] at r4
  have k4 := hsp3.recorded k2
  have v4 : (poked s2 0x7000 666).mem.read64 0x7000 = 666 := read64_write64 _ _ _
  have p4 : (poked s2 0x7000 666).regs .rsp = 0x6ff0 := p2
  have hc4 : Clear 0x100000 [⟨0, [.push, .block 0], 0x401000, 0x7000⟩] 16 (poked s2 0x7000 666) := by
    refine clear_of ?_ (by rw [p4]; decide)
    intro x hx
    rw [List.mem_singleton.1 hx, p4]; decide
  -- the check
  have hm' : (.insn 0 4103, .stack true) ∈ (slipPlan 0).checks := by decide +kernel
  obtain ⟨code, hc, hslip⟩ := C93_slips (fl := {}) hg_normal (a := .r14) (b := .r15) (by decide) (by decide)
    (by decide) ((slipCode.take 3).map Prod.fst) (p := 4103) (q := 4105) (r := 4107) (by decide)
    (sm := (slipSums 0).jit {}) (blockStart := 4096) (by decide +kernel) 4104
  have hce : code = slipCheckCode := by
    have : PopKind.emit {} ((slipSums 0).jit {}) slipProg.code (.stack true) (.insn 0 4103) = some code := hc
    rw [slipCheckCode, this]; rfl
  subst hce
  have hat' : slipBinary.AtCheck 0 0x7000 (.insn 0 4103) (poked s2 0x7000 666) := by
    refine ⟨slipCode.take 3, _, [_], rfl, rfl, ?_⟩
    refine atHeight_entry.2 ?_
    show (poked s2 0x7000 666).regs .rsp + 8 + 8 = 0x7000
    rw [p4]; decide
  have ha4 : Apart 0x100000 0x7000 0 (poked s2 0x7000 666) :=
    (hc4 _ (List.mem_singleton.2 rfl)).mono (by decide)
  have hv : (poked s2 0x7000 666).regs .rsp + 16 = 0x7000 := by rw [p4]; decide
  have b4 := r4.step (.begin (i := 0) (b := 0x600000) (n := 49) (setAt_same _ _ _) t3 ⟨_, _, hm', hc, hat'⟩
    ⟨_, slip_check_bytes, slip_check_stands, slip_check_length, by decide⟩ hc4 (k4.hasRoom.mpr (by decide)))
  rw [setAt_again] at b4
  obtain ⟨s5, hto, _, _⟩ := hslip (poked s2 0x7000 666) [0x401000] k4.holds
    (by rw [hv]; exact k4.checkSep ha4) (by rw [hv, v4]; decide) (by rw [hv, v4]; decide)
    (fun i => afterwards slipText 0x600000 49 (i + 5))
  have hrest : codeStream (popBytes .r14 ++ popBytes .r15 ++ [0xC3])
      (fun i => afterwards slipText 0x600000 49 (i + 5)) = afterwards slipText 0x600000 slipCheckBytes.length := by
    rw [slip_check_length]
    funext i
    by_cases hi : i < 5
    · have : ∀ i, i < 5 → codeStream (popBytes .r14 ++ popBytes .r15 ++ [0xC3])
        (fun i => afterwards slipText 0x600000 49 (i + 5)) i = afterwards slipText 0x600000 49 i := by decide +kernel
      exact this i hi
    · have hl : (popBytes .r14 ++ popBytes .r15 ++ [0xC3]).length = 5 := by decide
      have hk : i - 5 + 5 = i := by omega
      simp only [codeStream, hl, hi, dif_neg, not_false_eq_true, hk]
  rw [hrest] at hto
  obtain ⟨p, hp, hex⟩ := C114_slips slip_check_bytes slip_check_stands hto
  have hp : p = 48 := by
    have hlt : p < 49 := by
      rw [← slip_check_length]
      exact (List.getElem?_eq_some_iff.mp hp).1
    have : ∀ p, p < 49 → slipCheckBytes[p]? = some 0x62 → p = 48 := by decide +kernel
    exact this p hlt hp
  subst hp
  rw [slip_check_length] at hex
  have hout : ¬ Inside 0x600000 49 (0x600000 + BitVec.ofNat 64 (48 + 1 + 5)) := by
    rintro ⟨q, hq, h⟩
    have : ∀ q, q < 49 → (0x600000 : W) + BitVec.ofNat 64 (48 + 1 + 5) ≠ 0x600000 + BitVec.ofNat 64 q := by decide
    exact this q hq h
  obtain ⟨y, t, h1, h2, h3⟩ := executes_last hex ⟨0, by decide, rfl⟩ hout
  obtain ⟨u', ps5, b5, hu5⟩ := executes_trail h2 (.inl h1) (s := poked s2 0x7000 666) rfl (setAt_same _ _ _) alone' b4
  rw [setAt_again] at b5
  rw [← hu5] at h3
  exact ⟨_, b5.step (.astray (i := 0) (setAt_same _ _ _) h1 h3 hout (by decide))⟩

end Verif
