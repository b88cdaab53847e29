import Verif.Props.Moved
import Verif.Props.RedZonePush
import Verif.Props.Push
import Verif.Props.RegFrame
import Verif.Props.Plan

/-!
# C55 and C57: where snippets meet the code around them
-/

namespace Verif

/-! ## C57: flags after a check -/

/-- Instructions that neither change flags nor jump. -/
def Instr.quiet : Instr → Bool
  | .push _ | .pop _ | .load .. | .store .. | .loadGs .. | .storeGs .. | .lea .. | .bind _ => true
  | _ => false

theorem exec_quiet {i : Instr} (h : i.quiet = true) (s : State) :
    ∃ s', exec i s = .next s' ∧ s'.flags = s.flags := by
  cases i <;> first | exact ⟨_, rfl, rfl⟩ | cases h

theorem run_quiet {w k0 : Code} : ∀ (k : Code) (n : Nat) (s s' : State), (∀ i ∈ k, i.quiet = true) →
    run w n (k ++ k0) s = some (.exit s') →
    ∃ m s1, m ≤ n ∧ run w m k0 s1 = some (.exit s') ∧ s1.flags = s.flags := by
  intro k
  induction k with
  | nil => intro n s s' _ h; exact ⟨n, s, Nat.le_refl _, h, rfl⟩
  | cons i k ih =>
    intro n s s' hk h
    cases n with
    | zero => cases h
    | succ n =>
      obtain ⟨s1, e, ef⟩ := exec_quiet (hk i (by simp)) s
      rw [List.cons_append, run, e] at h
      obtain ⟨m, s2, hm, h2, h3⟩ := ih n s1 s' (fun j hj => hk j (by simp [hj])) h
      exact ⟨m, s2, by omega, h2, h3.trans ef⟩

theorem run_quiet_end {w k : Code} {n : Nat} {s s' : State} (hk : ∀ i ∈ k, i.quiet = true)
    (h : run w n k s = some (.exit s')) : s'.flags = s.flags := by
  obtain ⟨m, s1, _, h2, h3⟩ := run_quiet (k0 := []) k n s s' hk (by rw [List.append_nil]; exact h)
  cases m with
  | zero => cases h2
  | succ m => cases h2; exact h3

/-- Falling out of the loop of a check sets ZF. -/
theorem loop_zf {w k : Code} {sp ra : Reg} {off : Int} (hw : HasLoop w sp ra off k)
    (hk : ∀ (n : Nat) (s s' : State), s.zf = true → run w n k s = some (.exit s') → s'.zf = true) :
    ∀ (n : Nat) (s s' : State), run w n (loopCode sp ra off k) s = some (.exit s') → s'.zf = true := by
  intro n
  induction n using Nat.strongRecOn with
  | ind n ih =>
    intro s s' h
    obtain ⟨m, s1, hm, h1, _⟩ := run_quiet (w := w)
      (k0 := [.cmpMem ra .rsp off, .je .done, .cmpDword sp 0, .je .error, .jmp .loop,
        .bind .error, .illegal, .bind .done] ++ k)
      [.lea sp sp (-8), .load ra sp 0, .storeGs 0 sp] n s s' (by simp [Instr.quiet]) h
    cases m with
    | zero => cases h1
    | succ m =>
      simp only [List.cons_append, run, exec] at h1
      generalize ({ s1 with flags := cmpFlags (s1.regs ra) (s1.mem.read64 (s1.ea .rsp off)) } : State) = s2 at h1
      cases m with
      | zero => cases h1
      | succ m =>
        by_cases hz : s2.zf = true
        · simp only [run, exec, hz, if_true, hw.done] at h1
          exact hk _ _ _ hz h1
        · simp only [run, exec, hz, Bool.false_eq_true, if_false] at h1
          cases m with
          | zero => cases h1
          | succ m =>
            simp only [run, exec] at h1
            generalize ({ s2 with flags := cmpFlags (s2.mem.read32 (s2.regs sp)) (BitVec.ofInt 32 0) } : State) = s3 at h1
            cases m with
            | zero => cases h1
            | succ m =>
              by_cases hz : s3.zf = true
              · simp only [run, exec, hz, if_true, hw.error] at h1
                cases m with
                | zero => cases h1
                | succ m => simp only [run, exec] at h1; cases h1
              · simp only [run, exec, hz, Bool.false_eq_true, if_false] at h1
                cases m with
                | zero => cases h1
                | succ m =>
                  simp only [run, exec, hw.loop] at h1
                  exact ih m (by omega) _ _ h1

theorem restoreCode_quiet (t1 t2 : Reg) (b1 b2 : Bool) :
    ∀ i ∈ restoreCode t1 t2 b1 b2, i.quiet = true := by
  cases b1 <;> cases b2 <;> simp [restoreCode, Instr.quiet]

theorem saveCode_quiet (t1 t2 : Reg) (b1 b2 : Bool) : ∀ i ∈ saveCode t1 t2 b1 b2, i.quiet = true := by
  cases b1 <;> cases b2 <;> simp [saveCode, Instr.quiet]

theorem zf_of_flags {s s' : State} (h : s'.flags = s.flags) : s'.zf = s.zf := by
  unfold State.zf; rw [h]

/-- **C57 is false of the code, in every execution.** Whenever a check falls through, the zero
flag is set, whatever it was before: the flags are neither saved nor restored. -/
theorem C57_check_sets_zf {fl : JitFlags} (hf : Normal fl) {sm : Option JitSummary} {useOrig : Bool}
    {blockStart addr : Nat} {mid : Option MoveInst} (hm : popMove sm useOrig blockStart = some mid)
    (hok : ScratchOk fl (deadExit sm addr) mid) {code : Code}
    (hc : jitStackPop fl sm useOrig blockStart addr = some code) {s s' : State}
    (hx : Exits code s s') : s'.zf = true := by
  obtain ⟨c1, t, t1, t2, b1, b2, he, hs, _, _⟩ := (chosen_pop hok).out
  have hcode : code = c1 ++ validateRa t1 t2 t ++ restoreCode t1 t2 b1 b2 := by
    simp [jitStackPop, hf.notEmpty, hm, stackPopWith, he, body, hs.tmp1, hs.tmp2, hf.notSave,
      hf.noFrame, hs.restore] at hc
    rw [← hc, List.append_assoc]
  obtain ⟨n, hx⟩ := hx
  have hw : HasLoop code t1 t2 t.spOffset (restoreCode t1 t2 b1 b2) := by
    rw [hcode, List.append_assoc]
    exact hasLoop (by rw [hs.code]; exact fun l i hi => saveCode_binds _ _ _ _ l i hi)
  have e : code = (c1 ++ [.loadGs t1 0, .bind .loop]) ++
      loopCode t1 t2 t.spOffset (restoreCode t1 t2 b1 b2) := by
    rw [hcode]; simp [validateRa, loopCode]
  have hx' : run code n ((c1 ++ [.loadGs t1 0, .bind .loop]) ++
      loopCode t1 t2 t.spOffset (restoreCode t1 t2 b1 b2)) s = some (.exit s') := by
    rw [← e]; exact hx
  obtain ⟨m, s1, _, h1, _⟩ := run_quiet _ n s s' (by
    intro i hi
    rcases List.mem_append.mp hi with hi | hi
    · rw [hs.code] at hi; exact saveCode_quiet _ _ _ _ i hi
    · simp at hi; rcases hi with rfl | rfl <;> rfl) hx'
  exact loop_zf hw (fun n s s' hz h => by
    rw [zf_of_flags (run_quiet_end (restoreCode_quiet _ _ _ _) h)]; exact hz) m s1 s' h1

/-- The same for the register frame's check. -/
theorem C57_register_check_sets_zf {fl : JitFlags} (hf : Normal fl) {sm : JitSummary} {reg : Reg}
    (h : RegChoice sm reg) {code : Code} (hc : jitRegisterPop fl sm = some code) {s s' : State}
    (hx : Exits code s s') : s'.zf = true := by
  obtain ⟨t1, t2, t, c1, hp, hs, _, _⟩ := regPop_emitted hf h
  have hcode : code = regPopCode reg t1 t2 t c1 := by
    rw [hp] at hc; exact (Option.some.inj hc).symm
  obtain ⟨n, hx⟩ := hx
  have hpre : ∀ l i, i ∈ [.cmpMem reg .rsp 0, .je .success] ++ c1 → i.binds l = false := by
    intro l i hi
    rcases List.mem_append.mp hi with hi | hi
    · simp at hi; rcases hi with rfl | rfl <;> rfl
    · rw [hs.code] at hi; exact saveCode_binds _ _ _ _ l i hi
  have hw : HasLoop code t1 t2 t.spOffset
      (restoreCode t1 t2 true true ++ [.bind .success, .loadGs reg 8]) := by
    rw [hcode]
    have := hasLoop (pre := [.cmpMem reg .rsp 0, .je .success] ++ c1)
      (post := restoreCode t1 t2 true true ++ [.bind .success, .loadGs reg 8]) (sp := t1) (ra := t2)
      (t := t) hpre
    simpa [regPopCode] using this
  have hend : ∀ (n : Nat) (s s' : State), s.zf = true →
      run code n (restoreCode t1 t2 true true ++ [.bind .success, .loadGs reg 8]) s = some (.exit s') →
      s'.zf = true := by
    intro n s s' hz h
    rw [zf_of_flags (run_quiet_end (by
      intro i hi
      rcases List.mem_append.mp hi with hi | hi
      · exact restoreCode_quiet _ _ _ _ i hi
      · simp at hi; rcases hi with rfl | rfl <;> rfl) h)]
    exact hz
  have hsucc : target .success code = some [.loadGs reg 8] := by
    rw [hcode, regPopCode, hs.code]
    cases reg <;> rfl
  cases n with
  | zero => cases hx
  | succ n =>
    have e : code = .cmpMem reg .rsp 0 :: .je .success :: ((c1 ++ [.loadGs t1 0, .bind .loop]) ++
        loopCode t1 t2 t.spOffset (restoreCode t1 t2 true true ++ [.bind .success, .loadGs reg 8])) := by
      rw [hcode]; simp [regPopCode, validateRa, loopCode]
    have hx' := hx
    rw [show run code (n + 1) code s = run code (n + 1) (.cmpMem reg .rsp 0 :: .je .success ::
      ((c1 ++ [.loadGs t1 0, .bind .loop]) ++
        loopCode t1 t2 t.spOffset (restoreCode t1 t2 true true ++ [.bind .success, .loadGs reg 8]))) s
      from by rw [← e]] at hx'
    simp only [run, exec] at hx'
    generalize ({ s with flags := cmpFlags (s.regs reg) (s.mem.read64 (s.ea .rsp 0)) } : State) = s1 at hx'
    cases n with
    | zero => cases hx'
    | succ n =>
      by_cases hz : s1.zf = true
      · simp only [run, exec, hz, if_true, hsucc] at hx'
        rw [zf_of_flags (run_quiet_end (by simp [Instr.quiet]) hx')]; exact hz
      · simp only [run, exec, hz, Bool.false_eq_true, if_false] at hx'
        obtain ⟨m, s2, _, h1, _⟩ := run_quiet _ n s1 s' (by
          intro i hi
          rcases List.mem_append.mp hi with hi | hi
          · rw [hs.code] at hi; exact saveCode_quiet _ _ _ _ i hi
          · simp at hi; rcases hi with rfl | rfl <;> rfl) hx'
        exact loop_zf hw hend m s2 s' h1

/-- `f: test edi, edi; jne g; ret`: a conditional tail call. -/
def tailCode : CodeObj where
  funcs := [0]
  addr := fun _ => 4096
  entry := fun _ => 0
  blocks := fun _ => [0, 1]
  exitBlocks := fun _ => [0, 1]
  targets := fun b =>
    if b = 0 then [⟨0, 0, 7, .condTaken, false, true⟩, ⟨1, 0, 1, .condNotTaken, false, false⟩] else []
  start := fun b => 4096 + 16 * b
  last := fun b => 4096 + 16 * b + 8
  funcsAt := fun _ => [0]
  linkage := fun _ => none

/-- The same function as BPatch shows it. -/
def tailFunc : BFunc where
  func := 0
  name := "f"
  base := 4096
  cfg := {
    entries := [0]
    exits := [0, 1]
    blocks := [0, 1]
    out := fun b => if b = 0 then [⟨1, 0, 1, .condNotTaken, false, false⟩] else []
    writes := fun _ => [false]
    returns := fun b => if b = 1 then [true] else [false] }
  entryPoints := [0]
  exitPoints := [0, 1]
  start := fun b => 4096 + 16 * b
  isInsn := fun _ _ => true

/-- A state with the zero flag clear, the return address recorded. -/
def clearZf : State := { sampleState 0x401000 [0x401000] with flags := 2 }

/-- The check inserted there. -/
def tailCheck : Code := (jitStackPop {} none false 4096 4104).getD []

/-- Its result, by execution. -/
def tailAfter : Option State :=
  match run tailCheck 60 tailCheck clearZf with
  | some (.exit s) => some s
  | _ => none

/-- **C57 is false, with consequences.** A check is inserted in a block that ends with a
conditional jump out of the function; the check accepts and the jump, which would have been
taken (`jne` with the zero flag clear), is not. -/
theorem C57_refuted : ∃ (pushes : List (Pt × PushKind)) (checks : List (Pt × PopKind)) (st : Stats)
    (code : Code) (s s' : State),
    instrumentFunction {} [] tailCode (fun _ => none) tailFunc {} = some (.entryExit pushes checks, st) ∧
    (⟨.exit, 0, 0⟩, .stack false) ∈ checks ∧
    (∃ e ∈ tailCode.targets 0, e.type = .condTaken ∧ e.interproc = true) ∧
    jitStackPop {} none false (tailFunc.start 0) 4104 = some code ∧ s.Holds [0x401000] ∧
    retOf none s = 0x401000 ∧ Exits code s s' ∧ s.zf = false ∧ s'.zf = true := by
  have h2 : jitStackPop {} none false 4096 4104 = some tailCheck := by decide
  have h1 : (tailAfter.map fun s => s.zf) = some true := by decide
  unfold tailAfter at h1
  split at h1
  · rename_i s hs
    refine ⟨[(⟨.entry, 0, 0⟩, .stack false 0 false)],
      [(⟨.exit, 0, 0⟩, .stack false), (⟨.exit, 1, 0⟩, .stack false)], { totalFunc := 1 }, tailCheck,
      clearZf, s, rfl, by decide, by decide, h2, ⟨by decide, by decide⟩, by decide, ⟨60, hs⟩, by decide,
      by simpa using h1⟩
  · cases h1

/-! ## C55: registers clobbered by pushes -/

/-- The instructions executed after a push inserted with these options in a block `blk` or on an
edge to `trg`: where the scan moved it, the target block, or anything. -/
def AfterPush (useOrig useFixed : Bool) (blk trg rest : List BInsn) : Prop :=
  if useOrig then
    match entryData blk with
    | some mid => ∃ pre i r, blk = pre ++ i :: r ∧ i.addr = mid.newAddr ∧ rest = i :: r
    | none => True
  else if useFixed then rest = trg
  else True

theorem sorted_split {l : List BInsn} (h : l.Pairwise fun a b => a.addr < b.addr)
    {p p' r r' : List BInsn} {i i' : BInsn} (e : l = p ++ i :: r) (e' : l = p' ++ i' :: r')
    (ha : i.addr = i'.addr) : i :: r = i' :: r' := by
  have key : ∀ {p p' r r' : List BInsn} {i i' : BInsn}, l = p ++ i :: r → l = p' ++ i' :: r' →
      ∀ c, p = p' ++ c → i' :: r' = c ++ i :: r → i.addr = i'.addr → i :: r = i' :: r' := by
    intro p p' r r' i i' e e' c hc hr ha
    cases c with
    | nil => exact hr.symm
    | cons x c =>
      obtain ⟨rfl, hr⟩ := List.cons.inj hr
      rw [e', hr] at h
      rw [List.pairwise_append] at h
      have := (List.pairwise_cons.mp h.2.1).1 i (by simp)
      omega
  rcases List.append_eq_append_iff.mp (e.symm.trans e') with ⟨c, h3, h4⟩ | ⟨c, h3, h4⟩
  · exact (key e' e c h3 h4 ha.symm).symm
  · exact key e e' c h3 h4 ha

/-- **C55, what holds.** Without `--optimize_regs`, a register whose value a push changes is dead
where the push is.  Missing: `--optimize_regs`, with which it is false. -/
theorem C55_clobber_partial {jf : JitFlags} (hf : Normal jf) (hopt : jf.optimizeRegs = false)
    {js : JitSummary} {useOrig useFixed : Bool} {h : Int} {b t : Nat} {blk trg rest : List BInsn}
    (hb : js.entryData b = entryData blk) (ht : js.entryFixedData t = entryFixed trg)
    (hsort : blk.Pairwise fun a b => a.addr < b.addr)
    (hrest : AfterPush useOrig useFixed blk trg rest) {c : Code}
    (hc : jitStackPush jf (some js) useOrig h useFixed b t = some c) {mid : Option MoveInst}
    (hm : pushMove (some js) useOrig useFixed b t = some mid) {s s' : State}
    (hsep : PushSep (s.regs .rsp + BitVec.ofInt 64 (pushDisp (some js) mid h))
      (belowSp jf (deadEntry (some js)) mid) s)
    (hx : Exits c s s') (r : Reg) (hr : s'.regs r ≠ s.regs r) : r ∈ deadRegs rest := by
  have scan : ∀ m, mid = some m → Scratch2 (deadRegs rest) m := by
    intro m hmid
    subst hmid
    unfold pushMove at hm
    unfold AfterPush at hrest
    cases useOrig with
    | true =>
      simp only [if_true, Option.map_some, Option.some.injEq] at hm hrest
      rw [hb] at hm
      rw [hm] at hrest
      obtain ⟨pre, i, r', e1, e2, rfl⟩ := hrest
      obtain ⟨pre', i', r'', e1', e2', _, _, hs⟩ := C26_entry_position blk m hm
      rw [sorted_split hsort e1 e1' (e2.trans e2'.symm)]
      exact hs
    | false =>
      cases useFixed with
      | true =>
        simp only [Bool.false_eq_true, if_false, if_true, Option.map_some, Option.some.injEq] at hm hrest
        rw [ht] at hm
        subst hrest
        exact (fixed_scan hm).1
      | false => simp at hm
  have hok : ScratchOk jf (deadEntry (some js)) mid := by
    cases mid with
    | some m => exact scratchOk_of_scan (scan m rfl)
    | none => exact ⟨fun m h => by (cases h), fun _ h => by rw [hopt] at h; cases h⟩
  obtain ⟨_, hq⟩ := C02_push_transparent hf (some js) useOrig useFixed h b t mid hm hok c hc s hsep
  have hfree : ScratchFree jf (deadEntry (some js)) mid r :=
    Classical.byContradiction fun hn => hr ((hq s' hx).2.2.2.1 r hn)
  cases mid with
  | some m => exact scratchFree_dead (scan m rfl) r hfree
  | none => exact absurd hfree.1 (by rw [hopt]; decide)

/-- The hypotheses can be met: the push on the edge to block 2 of `lowGraph` uses `rax` and `rcx`,
and leaves another value in `rax`. -/
example : (rzSum.jit {}).entryFixedData 2 = entryFixed (rzCode 2) ∧
    AfterPush false true [] (rzCode 2) (rzCode 2) ∧
    pushMove (some (rzSum.jit {})) false true 0 2 = some (some rzMid) ∧
    (jitStackPush {} (some (rzSum.jit {})) false 0 true 0 2).map (fun c =>
      match run c 20 c (sampleState 0x401000 []) with
      | some (.exit s) => some (s.regs .rax)
      | _ => none) = some (some 0x100028) ∧ (sampleState 0x401000 []).regs .rax = 5 :=
  ⟨by decide, rfl, by decide, by decide, by decide⟩

/-- The blocks of `fastFunc`: the entry block sets `r8` to `r11`, the slow path reads `r11`. -/
def clobCode (b : Blk) : List BInsn :=
  if b = 0 then
    [leaInsn 4096 .r8 .rdi, leaInsn 4100 .r9 .rdi, leaInsn 4104 .r10 .rdi, leaInsn 4108 .r11 .rdi]
  else [leaInsn 4112 .rbx .r11]

/-- What the emitter gets: the registers that are dead when the function is entered. -/
def clobSum : JitSummary where
  deadAtEntry := ["x86_64::r10", "x86_64::r11", "x86_64::r8", "x86_64::r9"]

def clobPush : Code := (jitStackPush { optimizeRegs := true } (some clobSum) false 0 false 4112 0).getD []

/-- Its result, by execution. -/
def clobAfter : Option State :=
  match run clobPush 40 clobPush (sampleState 0x401000 []) with
  | some (.exit s) => some s
  | _ => none

/-- The instrumentation of `fastFunc` puts an unmoved push at the beginning of the slow path. -/
theorem clob_plan : ∃ (checks : List (Pt × PopKind)) (st : Stats),
    instrumentFunction {} [] fastCode (fun _ => some ({}, [])) fastFunc {} =
      some (.fastPath (⟨.blockEntry, 1, 0⟩, .stack false 0 false) checks, st) := by
  have : (instrumentFunction {} [] fastCode (fun _ => some ({}, [])) fastFunc {}).map (fun r =>
      match r.1 with
      | .fastPath p _ => decide (p = (⟨.blockEntry, 1, 0⟩, .stack false 0 false))
      | _ => false) = some true := by decide
  cases h : instrumentFunction {} [] fastCode (fun _ => some ({}, [])) fastFunc {} with
  | none => rw [h] at this; cases this
  | some r =>
    obtain ⟨pl, st⟩ := r
    rw [h] at this
    cases pl with
    | fastPath p checks =>
      have := of_decide_eq_true (Option.some.inj this)
      subst this
      exact ⟨checks, st, rfl⟩
    | _ => cases this

/-- **C55 is false with `--optimize_regs`.** The push at the beginning of the slow path, block 1,
uses registers that are dead when the function is entered (the entry block overwrites them); the
slow path reads one of them, `r11`, and gets another value. -/
theorem C55_refuted : (∃ (checks : List (Pt × PopKind)) (st : Stats),
      instrumentFunction {} [] fastCode (fun _ => some ({}, [])) fastFunc {} =
        some (.fastPath (⟨.blockEntry, 1, 0⟩, .stack false 0 false) checks, st)) ∧
    (∀ n ∈ clobSum.deadAtEntry, ∃ r ∈ deadRegs (clobCode 0), r.name = n) ∧
    (∃ i rest, clobCode 1 = i :: rest ∧ i.uses .r11 = true) ∧
    ∃ (code : Code) (s' : State),
      (PushKind.stack false 0 false).code { optimizeRegs := true } clobSum (fastFunc.start 1) 0 =
        some code ∧
      Exits code (sampleState 0x401000 []) s' ∧
      s'.regs .r11 ≠ (sampleState 0x401000 []).regs .r11 := by
  refine ⟨clob_plan, by decide, ⟨_, _, rfl, by decide⟩, clobPush, ?_⟩
  have h2 : jitStackPush { optimizeRegs := true } (some clobSum) false 0 false 4112 0 = some clobPush := by
    decide
  have h1 : (clobAfter.map fun s => s.regs .r11) = some 0x100028 := by decide
  unfold clobAfter at h1
  split at h1
  · rename_i s hs
    refine ⟨s, h2, ⟨40, hs⟩, ?_⟩
    have : s.regs .r11 = 0x100028 := by simpa using h1
    rw [this]
    decide
  · cases h1

end Verif
