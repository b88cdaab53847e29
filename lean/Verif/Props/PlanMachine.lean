import Verif.PlanMachine
import Verif.Props.MachineExamples

/-!
C80: the snippets of the plan are those of the machine.
-/

namespace Verif

/-! ## From snippets to steps of `Verif.Machine` -/

/-- The code is a push or check of the right kind which takes the return address from `R`. -/
inductive SnipFits (inReg : Prop) (reg : Reg) (c : Code) (s : State) (R : W) : Ev → Prop
  | push {d : Int} {n : Nat} {free : Reg → Prop} : ¬ inReg → IsPush c d n free → n ≤ 16 →
      s.retAddr d = R → SnipFits inReg reg c s R .push
  | save {d : Int} : inReg → IsRegPush c reg d → s.retAddr d = R → SnipFits inReg reg c s R .push
  | check {d : Int} {n : Nat} {free : Reg → Prop} : ¬ inReg → IsCheck c d n free → n ≤ 16 →
      s.retAddr d = R → SnipFits inReg reg c s R .check
  | compare : inReg → IsRegPop c reg → s.regs .rsp = R → SnipFits inReg reg c s R .check

/-- The same, and it clobbers only registers in `X` and at most `w` bytes below the stack pointer. -/
inductive SnipFitsIn (inReg : Prop) (reg : Reg) (X : Reg → Prop) (w : Nat) (c : Code) (s : State) (R : W) :
    Ev → Prop
  | push {d : Int} {n : Nat} {free : Reg → Prop} : ¬ inReg → IsPush c d n free → n ≤ w →
      (∀ r, free r → X r) → s.retAddr d = R → SnipFitsIn inReg reg X w c s R .push
  | save {d : Int} : inReg → IsRegPush c reg d → s.retAddr d = R →
      SnipFitsIn inReg reg X w c s R .push
  | check {d : Int} {n : Nat} {free : Reg → Prop} : ¬ inReg → IsCheck c d n free → n ≤ w →
      (∀ r, free r → X r) → s.retAddr d = R → SnipFitsIn inReg reg X w c s R .check
  | compare : inReg → IsRegPop c reg → s.regs .rsp = R → SnipFitsIn inReg reg X w c s R .check

theorem SnipFitsIn.fits {inReg : Prop} {reg : Reg} {X : Reg → Prop} {w : Nat} {c : Code} {s : State} {R : W}
    {ev : Ev} (h : SnipFitsIn inReg reg X w c s R ev) (hw : w ≤ 16) : SnipFits inReg reg c s R ev := by
  cases h with
  | push h1 h2 h3 _ h4 => exact .push h1 h2 (Nat.le_trans h3 hw) h4
  | save h1 h2 h3 => exact .save h1 h2 h3
  | check h1 h2 h3 _ h4 => exact .check h1 h2 (Nat.le_trans h3 hw) h4
  | compare h1 h2 h3 => exact .compare h1 h2 h3

theorem sep_below {r x : W} {m n k : Nat} (hk : k ≤ n) (h : Sep x m (r - BitVec.ofNat 64 n) n) :
    Sep x m (r - BitVec.ofNat 64 k) k := by
  intro i j hi hj e
  refine h i (j + (n - k)) hi (by omega) (e.trans ?_)
  have h1 : BitVec.ofNat 64 n = BitVec.ofNat 64 k + BitVec.ofNat 64 (n - k) := by
    rw [← BitVec.ofNat_add]; congr 1; omega
  rw [h1, BitVec.ofNat_add]
  generalize BitVec.ofNat 64 k = a
  generalize BitVec.ofNat 64 (n - k) = b
  generalize BitVec.ofNat 64 j = c
  bv_omega

theorem Apart.mono {g R : W} {s : State} {n k : Nat} (h : Apart g R n s) (hk : k ≤ n) :
    Apart g R k s :=
  ⟨h.ret, (sep_below hk h.save.symm).symm, sep_below hk h.ret_save⟩

theorem Clear.mono {g : W} {acts : List XAct} {s : State} {n k : Nat} (h : Clear g acts n s)
    (hk : k ≤ n) : Clear g acts k s := fun x hx => (h x hx).mono hk

section
variable {m : ProgSem} {frame : Func → Reg} {snip : Func → Ev → Code → State → W → Prop} {g : W}

/-- Snippets which fit are those of `Verif.Machine`. -/
theorem EStep.refines
    (hfit : ∀ f t ev c s R, m.trace f (t ++ [ev]) → snip f ev c s R →
      SnipFits (m.inReg f) (frame f) c s R ev)
    {p q : XProc} (h : EStep m frame snip g p q) : XStep m frame g p q := by
  cases h with
  | work h1 h2 => exact .work h1 h2
  | block h => exact .block h
  | call p h1 h2 h3 => exact .call p h1 h2 h3
  | snippet h1 h2 h3 h4 h5 h6 =>
    cases hfit _ _ _ _ _ _ h1 h2 with
    | push k1 k2 k3 k4 => exact .push h1 k1 k2 k4 (h3.mono k3) h4 h5
    | save k1 k2 k4 => exact .save h1 k1 k2 k4 (h3.mono (Nat.zero_le _)) h5
    | check k1 k2 k3 k4 => exact .check h1 k1 k2 k4 (h3.mono k3) h5 (h6 rfl)
    | compare k1 k2 k4 => exact .compare h1 k1 k2 k4 h3 h5 (h6 rfl)
  | accept h1 h2 h3 h5 h6 =>
    cases hfit _ _ _ _ _ _ h1 h2 with
    | check k1 k2 k3 k4 => exact .accept h1 k1 k2 k4 (h3.mono k3) h5 h6
    | compare k1 k2 k4 => exact .acceptReg h1 k1 k2 k4 h3 h5 h6
  | trap h1 h2 h3 h4 h5 =>
    cases hfit _ _ _ _ _ _ h1 h2 with
    | push k1 k2 k3 k4 => exact .pushTrap h1 k1 k2 k4 (h3.mono k3) h4 h5
    | save k1 k2 k4 => exact .saveTrap h1 k1 k2 k4 (h3.mono (Nat.zero_le _)) h5
    | check k1 k2 k3 k4 => exact .fail h1 k1 k2 k4 (h3.mono k3) h5
    | compare k1 k2 k4 => exact .failReg h1 k1 k2 k4 h3 h5
  | ret h1 h2 => exact .ret h1 h2
  | hijack h1 h2 h3 => exact .hijack h1 h2 h3
  | tail h1 h2 => exact .tail h1 h2

theorem ERun.refines
    (hfit : ∀ f t ev c s R, m.trace f (t ++ [ev]) → snip f ev c s R →
      SnipFits (m.inReg f) (frame f) c s R ev)
    {p q : XProc} (h : ERun m frame snip g p q) : XRun m frame g p q := by
  induction h with
  | refl => exact .refl _
  | step _ h ih => exact .step ih (h.refines hfit)

theorem XProtected.planned
    (hfit : ∀ f t ev c s R, m.trace f (t ++ [ev]) → snip f ev c s R →
      SnipFits (m.inReg f) (frame f) c s R ev)
    {f : Func} (h : XProtected m frame g f) : EProtected m frame snip g f where
  recorded s0 p s a as h0 hr hd := h.recorded s0 p s a as h0 (hr.refines hfit) hd
  unchecked s0 p v h0 hr := h.unchecked s0 p v h0 (hr.refines hfit)
  accepted s0 p s acts v h0 hr hs := h.accepted s0 p s acts v h0 (hr.refines hfit) (hs.refines hfit)
  alarm s0 p s acts h0 hr hs := h.alarm s0 p s acts h0 (hr.refines hfit) (hs.refines hfit)

end

/-! ## Conditions on the binary -/

/-- The binary is as the analyses assume. -/
structure BinaryOk (B : Binary) (fl : InstrFlags) (jf : JitFlags) (co : CodeObj) (info : StackInfo)
    (R : Func → RegFacts) (bf : Func → BFunc) (dead : Func → DeadNames) (frame : Func → Reg) :
    Prop where
  normal : Normal jf
  /-- the names in the dead sets are in order (C09) -/
  dead : ∀ f ∈ co.funcs, DeadOk jf (dead f)
  /-- the first unused register -/
  frame : ∀ f ∈ co.funcs, (R f).unusedRegs ≠ [] →
    (R f).unusedRegs.head? = some (frame f).name ∧ frame f ≠ .rsp
  start : ∀ f ∈ co.funcs, ∀ b, (bf f).start b = co.start b
  starts : ∀ f ∈ co.funcs, ∀ b, b ∈ co.blocks f → ∀ c, c ∈ co.blocks f → co.start b = co.start c → b = c
  /-- the scans of the blocks (C26-C28) -/
  entryScan : ∀ f ∈ co.funcs, ∀ b m, (R f).entryData.lookup (co.start b) = some m →
    entryData ((B.code b).map Prod.fst) = some m
  fixedScan : ∀ f ∈ co.funcs, ∀ b m, (R f).entryFixedData.lookup (co.start b) = some m →
    entryFixed ((B.code b).map Prod.fst) = some m
  exitScan : ∀ f ∈ co.funcs, ∀ b m, (R f).exitData.lookup (co.start b) = some m →
    exitData ((B.code b).map Prod.fst) = some m
  /-- instructions do to the stack pointer what the scans take for granted -/
  before : ∀ b, ∀ p ∈ B.code b, PlainBefore p
  after : ∀ b, ∀ p ∈ beforeRet (B.code b), PlainAfter p
  short : ∀ b, 8 * (B.code b).length + 8 ≤ 2 ^ 64
  /-- a return comes last -/
  ends : ∀ b, BlockEnd (B.code b) (beforeRet (B.code b))
  addrs : ∀ b, ((B.code b).map fun p => p.1.addr).Nodup
  /-- Dyninst's heights are right -/
  heightIn : ∀ f ∈ co.funcs, ∀ b ∈ co.blocks f, ∀ h, info.heightStart b = some h → B.hin f b = h
  heightOut : ∀ f ∈ co.funcs, ∀ b ∈ co.blocks f, ∀ h, info.heightEnd b = some h → B.hout f b = h
  /-- at the entry and the exits the stack pointer is at the return address -/
  entry : ∀ f ∈ co.funcs, B.hin f (co.entry f) = -8
  exit : ∀ f ∈ co.funcs, ∀ b ∈ co.exitBlocks f, isNonreturningCall (co.targets b) = false →
    B.hout f b = -8
  /-- heights are the same along all paths -/
  edges : ∀ f ∈ co.funcs, Heights (bf f).cfg (fun b => B.hin f b + 8) fun b => B.hout f b + 8

/-! ## What the passes leave in the summaries -/

theorem analyse_regs {co : CodeObj} {info : StackInfo} {R : Func → RegFacts} {T : Sums}
    (hok : CodeOk co) (h : analyse co info R = some T) {f : Func} (hf : f ∈ co.funcs) :
    (T f).entryData = (R f).entryData ∧ (T f).entryFixedData = (R f).entryFixedData ∧
    (T f).exitData = (R f).exitData ∧ (T f).unusedRegs = (R f).unusedRegs := by
  obtain ⟨S1, S4, S5, free, h1, h4, h5, rfl⟩ := analyse_steps h
  simp only [setSafe]
  rw [runLocal_apply _ hok.nodup _ _ _ hf]
  exact ⟨rfl, rfl, rfl, rfl⟩

/-- Either nothing is recorded about the stack heights in a function, or what Dyninst finds. -/
theorem analyse_heights_all {co : CodeObj} {info : StackInfo} {R : Func → RegFacts} {T : Sums}
    (hok : CodeOk co) (h : analyse co info R = some T) {f : Func} (hf : f ∈ co.funcs)
    (hinj : ∀ b, b ∈ co.blocks f → ∀ c, c ∈ co.blocks f → co.start b = co.start c → b = c)
:
    ((T f).blockEndSPHeight = [] ∧ (T f).blockEntrySPHeight = []) ∨ ∀ b ∈ co.blocks f,
      (T f).blockEndSPHeight.lookup (co.start b) = (info.heightEnd b).map (fun h => -8 - h) ∧
      (T f).blockEntrySPHeight.lookup (co.start b) = (info.heightStart b).map (fun h => -8 - h) := by
  obtain ⟨S1, S4, S5, free, h1, h4, h5, rfl⟩ := analyse_steps h
  have tail : ∀ {β : Type} (π : FuncSummary → β), (∀ s, π (setSafe s) = π s) →
      (∀ f s, π (setRegs R f s) = π s) → (∀ f s, π (countSafe co f s) = π s) → ∀ g,
      π (setSafe (runLocal co.funcs (setRegs R) (runLocal co.funcs (countSafe co) (ucRun co S5)) g)) =
        π (ucRun co S5 g) := by
    intro β π p1 p2 p3 g
    rw [p1, runLocal_same _ π p2, runLocal_same _ π p3]
  have t1 := tail (·.blockEndSPHeight) (fun _ => rfl) (fun _ _ => rfl) (fun _ _ => rfl) f
  have t2 := tail (·.blockEntrySPHeight) (fun _ => rfl) (fun _ _ => rfl) (fun _ _ => rfl) f
  have u : { ucRun co S5 f with unsafeBlocks := [] } = { S5 f with unsafeBlocks := [] } :=
    runLocal_same _ (fun s => { s with unsafeBlocks := [] }) (ucFunc_erase co _) S5 f
  have v' : exErase (S5 f) = exErase (S4 f) := exRun_erase h5 f
  generalize hS2 : runLocal co.funcs (largeFilter co) S1 = S2 at h4
  have w : ipErase (S4 f) = ipErase (runLocal co.funcs (stackHeight co info) S2 f) := ipRun_erase h4 f
  have y : { S2 f with assumeUnsafe := false } = { S1 f with assumeUnsafe := false } := by
    rw [← hS2]
    exact runLocal_same _ (fun s => { s with assumeUnsafe := false }) (largeFilter_erase co) S1 f
  have z : cgErase (S1 f) = cgErase {} := cgRun_erase h1 f
  have e1 : (S2 f).blockEndSPHeight = [] := by
    have a1 := congrArg FuncSummary.blockEndSPHeight y
    have a2 := congrArg FuncSummary.blockEndSPHeight z
    exact a1.trans a2
  have e2 : (S2 f).blockEntrySPHeight = [] := by
    have a1 := congrArg FuncSummary.blockEntrySPHeight y
    have a2 := congrArg FuncSummary.blockEntrySPHeight z
    exact a1.trans a2
  have f1 : (ucRun co S5 f).blockEndSPHeight = (stackHeight co info f (S2 f)).blockEndSPHeight := by
    have a1 := congrArg FuncSummary.blockEndSPHeight u
    have a2 := congrArg FuncSummary.blockEndSPHeight v'
    have a3 := congrArg FuncSummary.blockEndSPHeight w
    rw [runLocal_apply _ hok.nodup _ _ _ hf] at a3
    exact a1.trans (a2.trans a3)
  have f2 : (ucRun co S5 f).blockEntrySPHeight = (stackHeight co info f (S2 f)).blockEntrySPHeight := by
    have a1 := congrArg FuncSummary.blockEntrySPHeight u
    have a2 := congrArg FuncSummary.blockEntrySPHeight v'
    have a3 := congrArg FuncSummary.blockEntrySPHeight w
    rw [runLocal_apply _ hok.nodup _ _ _ hf] at a3
    exact a1.trans (a2.trans a3)
  rw [t1, t2, f1, f2]
  cases ha : (S2 f).assumeUnsafe with
  | true =>
    unfold stackHeight
    rw [ha, if_pos rfl, e1, e2]
    exact .inl ⟨rfl, rfl⟩
  | false => exact .inr fun b hb => C65_heights co info f (S2 f) ha ⟨e1, e2⟩ hinj hb

/-- Only heights found by Dyninst are recorded. -/
theorem analyse_heights {co : CodeObj} {info : StackInfo} {R : Func → RegFacts} {T : Sums}
    (hok : CodeOk co) (h : analyse co info R = some T) {f : Func} (hf : f ∈ co.funcs)
    (hinj : ∀ b, b ∈ co.blocks f → ∀ c, c ∈ co.blocks f → co.start b = co.start c → b = c)
    {b : Blk} (hb : b ∈ co.blocks f) {v : Int} :
    ((T f).blockEndSPHeight.lookup (co.start b) = some v → info.heightEnd b = some (-8 - v)) ∧
    ((T f).blockEntrySPHeight.lookup (co.start b) = some v → info.heightStart b = some (-8 - v)) := by
  rcases analyse_heights_all hok h hf hinj with ⟨e1, e2⟩ | k
  · rw [e1, e2]
    exact ⟨nofun, nofun⟩
  · obtain ⟨k1, k2⟩ := k b hb
    rw [k1, k2]
    constructor
    · intro h
      obtain ⟨h', e, rfl⟩ := Option.map_eq_some_iff.1 h
      rw [e]; congr 1; omega
    · intro h
      obtain ⟨h', e, rfl⟩ := Option.map_eq_some_iff.1 h
      rw [e]; congr 1; omega

/-! ## Emitted code -/

theorem push_fits {jf : JitFlags} (hf : Normal jf) {js : JitSummary} {o x : Bool} {ht : Int}
    {b trg : Nat} {mid : Option MoveInst} (hm : pushMove (some js) o x b trg = some mid)
    (hok : ScratchOk jf js.deadAtEntry mid) {w : Nat} (hw : belowSp jf js.deadAtEntry mid ≤ w)
    {X : Reg → Prop} (hX : ∀ r, ScratchFree jf js.deadAtEntry mid r → X r) :
    ∃ c, jitStackPush jf (some js) o ht x b trg = some c ∧ ∀ {inReg : Prop} {reg : Reg} {s : State}
      {R : W}, ¬ inReg → s.regs .rsp + BitVec.ofInt 64 (popDisp mid + ht) = R →
      SnipFitsIn inReg reg X w c s R .push := by
  obtain ⟨c, hc, _⟩ := C01_push_records hf (some js) o x ht b trg mid hm hok
  refine ⟨c, hc, fun hn hR => .push (d := popDisp mid + ht) hn
    ⟨jf, some js, o, ht, x, b, trg, mid, hf, hm, hok, hc, ?_, rfl, rfl⟩ hw hX hR⟩
  unfold pushDisp popDisp; cases mid <;> simp

theorem save_fits {jf : JitFlags} (hf : Normal jf) {js : JitSummary} {reg : Reg}
    (hc : RegChoice js reg) (ht : Int) {w : Nat} {X : Reg → Prop} :
    ∃ c, jitRegisterPush jf js ht = some c ∧ ∀ {inReg : Prop} {s : State} {R : W}, inReg →
      s.regs .rsp + BitVec.ofInt 64 ht = R → SnipFitsIn inReg reg X w c s R .push := by
  obtain ⟨c, h1, _⟩ := regPush_exits hf hc ht
  exact ⟨c, h1, fun hn hR => .save hn ⟨jf, js, hf, hc, h1⟩ hR⟩

theorem check_fits {jf : JitFlags} (hf : Normal jf) {js : JitSummary} {o : Bool} {b addr : Nat}
    {mid : Option MoveInst} (hm : popMove (some js) o b = some mid)
    (hok : ScratchOk jf (deadExit (some js) addr) mid) {w : Nat}
    (hw : belowSp jf (deadExit (some js) addr) mid ≤ w) {X : Reg → Prop}
    (hX : ∀ r, ScratchFree jf (deadExit (some js) addr) mid r → X r) :
    ∃ c, jitStackPop jf (some js) o b addr = some c ∧ ∀ {inReg : Prop} {reg : Reg} {s : State}
      {R : W}, ¬ inReg → s.regs .rsp + BitVec.ofInt 64 (popDisp mid) = R →
      SnipFitsIn inReg reg X w c s R .check := by
  obtain ⟨c, hc⟩ := check_emitted hf hm hok
  exact ⟨c, hc, fun hn hR => .check hn ⟨jf, some js, o, b, addr, mid, hf, hm, hok, hc, rfl, rfl, rfl⟩
    hw hX hR⟩

theorem compare_fits {jf : JitFlags} (hf : Normal jf) {js : JitSummary} {reg : Reg}
    (hc : RegChoice js reg) {w : Nat} {X : Reg → Prop} :
    ∃ c, jitRegisterPop jf js = some c ∧ ∀ {inReg : Prop} {s : State} {R : W}, inReg →
      s.regs .rsp = R → SnipFitsIn inReg reg X w c s R .check := by
  obtain ⟨t1, t2, t, c1, h1, _⟩ := regPop_emitted hf hc
  exact ⟨_, h1, fun hn hR => .compare hn ⟨jf, js, hf, hc, h1⟩ hR⟩

/-- The place of an instruction in a block is determined by its address. -/
theorem addr_split {l : List (BInsn × Sem)} (hnd : (l.map fun p => p.1.addr).Nodup)
    {pre post pre' post' : List (BInsn × Sem)} {p p' : BInsn × Sem} (h : l = pre ++ p :: post)
    (h' : l = pre' ++ p' :: post') (he : p.1.addr = p'.1.addr) : pre = pre' ∧ p :: post = p' :: post' := by
  subst h
  induction pre generalizing pre' with
  | nil =>
    cases pre' with
    | nil => exact ⟨rfl, h'⟩
    | cons q pre' =>
      injection h' with h1 h2
      subst h1
      rw [h2] at hnd
      simp only [List.nil_append, List.map_cons, List.nodup_cons] at hnd
      exact absurd (by simp [he]) hnd.1
  | cons q pre ih =>
    cases pre' with
    | nil =>
      injection h' with h1 h2
      subst h1
      simp only [List.cons_append, List.map_cons, List.map_append, List.nodup_cons] at hnd
      exact absurd (by simp [← he]) hnd.1
    | cons q' pre' =>
      injection h' with h1 h2
      subst h1
      simp only [List.cons_append, List.map_cons, List.nodup_cons] at hnd
      obtain ⟨e1, e2⟩ := ih (pre' := pre') (by simpa using hnd.2) h2
      exact ⟨by rw [e1], e2⟩

theorem beforeRet_nodup {l : List (BInsn × Sem)} (hnd : (l.map fun p => p.1.addr).Nodup) :
    ((beforeRet l).map fun p => p.1.addr).Nodup :=
  hnd.sublist ((List.takeWhile_sublist _).map _)

/-! ## The snippets of a plan -/

theorem safeReach_blocks {co : CodeObj} {f : Func} (hwf : WellFormed co f) {stop : Blk → Bool} {c : Blk}
    (h : SafeReach co.targets stop (co.entry f) c) : c ∈ co.blocks f := by
  induction h with
  | refl => exact hwf.entry
  | step _ he hf _ ih => exact hwf.closed _ ih _ he hf

theorem low_edge_blocks {co : CodeObj} {f : Func} {s : FuncSummary} {L : Lowered} {R : List Edge}
    {reach : List PNode} {cs : CState} (hwf : WellFormed co f) (hl : LowFacts co f s L R reach cs)
    {e : Edge} (he : e ∈ R) : e.src ∈ co.blocks f ∧ e.trg ∈ co.blocks f := by
  obtain ⟨c, h1, h2, h3, _⟩ := (hl.redirect e).1 he
  have hc := safeReach_blocks hwf h1
  rw [hwf.src c e h2]
  exact ⟨hc, hwf.closed c hc e h2 h3⟩

/-- Pushes of a lowered function are in blocks or on edges of the function. -/
theorem low_push_blocks {fl : InstrFlags} {co : CodeObj} {f : Func} {s : FuncSummary} {L : Lowered}
    (ha : fl.asserts = true) (h : doLowering fl co f (some s) = some (some L)) (hwf : WellFormed co f) :
    (∀ x ∈ L.edgePush, x.1.src ∈ co.blocks f ∧ x.1.trg ∈ co.blocks f) ∧
    ∀ x ∈ L.blockPush, x.1.1 ∈ co.blocks f := by
  obtain ⟨r, reach, cs, _, _, _, hl⟩ := low_facts ha h
  constructor
  · intro x hx
    have : x.1 ∈ cs.redirect := by rw [← hl.edges]; exact List.mem_map_of_mem hx
    exact low_edge_blocks hwf hl (hl.coalesced.sub _ this)
  · intro x hx
    have : x.1 ∈ cs.inst := by rw [← hl.blocks]; exact List.mem_map_of_mem hx
    obtain ⟨e, he, hd⟩ := hl.coalesced.some _ this
    rw [← hd, hl.dest_fst]
    exact (low_edge_blocks hwf hl he).2

section
variable {fl : InstrFlags} {skip : List Nat} {jf : JitFlags} {co : CodeObj} {info : StackInfo} {R : Func → RegFacts}
  {T : Sums} {bf : Func → BFunc} {plan : Func → Plan} {B : Binary} {dead : Func → DeadNames}
  {frame : Func → Reg}

theorem inRegOf_iff (f : Func) :
    inRegOf fl T f ↔ ((T f).shouldUseRegisterFrame && !fl.disableRegFrame) = true := by
  unfold inRegOf useRegFrame
  rw [Bool.and_comm]

theorem BinaryOk.choice (hB : BinaryOk B fl jf co info R bf dead frame)
    (hb : Built fl skip co info R T bf plan) {f : Func} (hf : f ∈ co.funcs) (hu : inRegOf fl T f) :
    RegChoice ((T f).jit (dead f)) (frame f) := by
  have hr := (analyse_regs hb.code hb.sums hf).2.2.2
  have hne : (T f).unusedRegs ≠ [] := by
    intro h0
    rw [inRegOf_iff] at hu
    have : (T f).shouldUseRegisterFrame = true := (Bool.and_eq_true _ _ ▸ hu).1
    unfold FuncSummary.shouldUseRegisterFrame at this
    rw [h0] at this
    simp at this
  obtain ⟨h1, h2⟩ := hB.frame f hf (by rw [← hr]; exact hne)
  exact ⟨by change (T f).unusedRegs.head? = _; rw [hr]; exact h1, h2⟩

/-- Where the return address is when a moved push is executed. -/
theorem BinaryOk.moved (hB : BinaryOk B fl jf co info R bf dead frame) {f : Func} {b : Blk}
    {mid : MoveInst} (hm : entryData ((B.code b).map Prod.fst) = some mid) {s : State} {r : W}
    (h : B.AtPush f r (.insn b mid.newAddr) s) :
    s.regs .rsp + BitVec.ofInt 64 (mid.raOffset + (-8 - B.hin f b)) = r := by
  obtain ⟨pre, p, post, st, h1, h2, h3, rfl⟩ := h
  obtain ⟨pre', p', post', e1, e2, e3⟩ := C26_entry_return_address_partial _ _ hm (hB.before b) (hB.short b)
  obtain ⟨rfl, _⟩ := addr_split (hB.addrs b) h1 e1 (h2.trans e2.symm)
  rw [BitVec.ofInt_add, ← BitVec.add_assoc, (e3 st).1]
  exact atHeight_slot h3

/-- ... when a moved check is executed. -/
theorem BinaryOk.movedCheck (hB : BinaryOk B fl jf co info R bf dead frame) {f : Func} {b : Blk}
    {mid : MoveInst} (hm : exitData ((B.code b).map Prod.fst) = some mid) {s : State} {r : W}
    (hh : B.hout f b = -8) (h : B.AtCheck f r (.insn b mid.newAddr) s) :
    s.regs .rsp + BitVec.ofInt 64 mid.raOffset = r := by
  obtain ⟨pre, p, post, h1, h2, h3⟩ := h
  obtain ⟨pre', p', post', e1, e2, e3⟩ := blockEnd_offset (hB.ends b) hm (hB.after b)
  obtain ⟨rfl, h4⟩ := addr_split (beforeRet_nodup (hB.addrs b)) h1 e1 (h2.trans e2.symm)
  rw [hh, atHeight_entry, h4, (e3 s).1] at h3
  exact h3

theorem BinaryOk.noMove (hB : BinaryOk B fl jf co info R bf dead frame) {f : Func} (hf : f ∈ co.funcs) :
    ScratchOk jf ((T f).jit (dead f)).deadAtEntry none :=
  ⟨by simp, fun _ => (hB.dead f hf).entry⟩

/-- A moved snippet uses at most eight bytes below the stack pointer. -/
theorem belowSp_moved {jf : JitFlags} {d : List String} {m : MoveInst} : belowSp jf d (some m) ≤ 8 := by
  simp only [belowSp]; split <;> omega

/-- The registers which a moved push clobbers. -/
theorem spoils_entry {b : Blk} {m : MoveInst} (hm : entryData ((B.code b).map Prod.fst) = some m) {d : List String}
    (r : Reg) (hr : ScratchFree jf d (some m) r) : B.DeadAt b m.newAddr r := by
  obtain ⟨_, i, rest, h1, h2, _, _, hsc⟩ := C26_entry_position _ _ hm
  obtain ⟨pre', tail, e1, e2, e3⟩ := List.map_eq_append_iff.mp h1
  obtain ⟨p, rest', e4, e5, e6⟩ := List.map_eq_cons_iff.mp e3
  refine ⟨pre', p, rest', by rw [e1, e4], by rw [e5, h2], ?_⟩
  rw [List.map_cons, e5, e6]
  exact scratchFree_dead hsc r hr

/-- ... a moved check. -/
theorem spoils_exit {b : Blk} {m : MoveInst} (hm : exitData ((B.code b).map Prod.fst) = some m) {d : List String}
    (r : Reg) (hr : ScratchFree jf d (some m) r) : B.DeadAt b m.newAddr r := by
  obtain ⟨_, i, rest, h1, h2, _, _, _, hsc⟩ := C27_exit_position _ _ hm
  obtain ⟨pre', tail, e1, e2, e3⟩ := List.map_eq_append_iff.mp h1
  obtain ⟨p, rest', e4, e5, e6⟩ := List.map_eq_cons_iff.mp e3
  refine ⟨pre', p, rest', by rw [e1, e4], by rw [e5, h2], ?_⟩
  rw [List.map_cons, e5, e6]
  exact scratchFree_dead hsc r hr

/-- The registers which a check clobbers that is not moved. -/
theorem noMoveExit_free {f : Func} {b : Blk} (r : Reg)
    (h : ScratchFree jf (deadExit (some ((T f).jit (dead f))) (co.last b)) none r) :
    B.Spoils jf co dead f .check (.blk b) r := by
  obtain ⟨h1, h2⟩ := h
  simp only [deadExit, FuncSummary.jit] at h2
  cases hd : (dead f).exit (co.last b) with
  | none => rw [hd] at h2; exact absurd h2 List.not_mem_nil
  | some d => rw [hd] at h2; exact ⟨h1, d, hd, h2⟩

theorem lowered_pushes (hB : BinaryOk B fl jf co info R bf dead frame)
    (hb : Built fl skip co info R T bf plan) {f : Func} (hf : f ∈ co.funcs) {L : Lowered}
    (h : doLowering fl co f (some (T f)) = some (some L)) {pl : Place} {k : PushKind}
    (hx : (pl, k) ∈ (Plan.lowered L).pushes) :
    ∃ c, k.emit jf ((T f).jit (dead f)) co pl = some c ∧ ∀ r s, B.AtPush f r pl s →
      SnipFitsIn (inRegOf fl T f) (frame f) (B.Spoils jf co dead f .push pl) pl.width c s r .push := by
  obtain ⟨r1, r2, r3, r4⟩ := analyse_regs hb.code hb.sums hf
  obtain ⟨b1, b2⟩ := low_push_blocks hb.asserts h (hb.func f hf).wf
  have hN := hB.normal
  rcases List.mem_append.1 hx with hx | hx
  · obtain ⟨⟨e, k'⟩, he, hk⟩ := List.mem_map.1 hx
    injection hk with hk1 hk2
    subst hk1 hk2
    simp only
    have hp := (low_pushes h).1 _ he
    obtain ⟨hsrc, _⟩ := b1 _ he
    unfold edgePushOf at hp
    cases hh : (T f).blockEndSPHeight.lookup (co.start e.src) with
    | none => simp only [hh] at hp; cases hp
    | some v =>
      have hd := (analyse_heights hb.code hb.sums hf (hB.starts f hf) hsrc).1 hh
      have hv := hB.heightOut f hf _ hsrc _ hd
      have hslot : ∀ r s, B.AtPush f r (.edge e) s → s.regs .rsp + BitVec.ofInt 64 v = r := by
        intro r s ha
        have := atHeight_slot ha
        rw [hv] at this
        rwa [show (-8 : Int) - (-8 - v) = v by omega] at this
      simp only [hh, bind, Option.bind] at hp
      split at hp
      · rename_i hu
        cases hp
        have hin := (inRegOf_iff f).2 hu
        obtain ⟨c, hc, hfit⟩ := save_fits hN (hB.choice hb hf hin) v
        exact ⟨c, hc, fun r s ha => hfit hin (hslot r s ha)⟩
      · rename_i hu
        have hin : ¬ inRegOf fl T f := fun h => hu ((inRegOf_iff f).1 h)
        generalize hmid : (if fl.disableRegSaveOpt = true then none
          else (T f).entryFixedData.lookup (co.start e.trg)) = mid at hp
        cases mid with
        | none =>
          cases hp
          obtain ⟨c, hc, hfit⟩ := push_fits hN (js := (T f).jit (dead f)) (o := false) (x := false)
            (ht := v) (b := co.start e.src) (trg := co.start e.trg) (mid := none) rfl (hB.noMove hf) (w := 16)
            (belowSp_le _ _ _) (X := B.Spoils jf co dead f .push (.edge e)) (fun r hr => .inl hr)
          exact ⟨c, hc, fun r s ha => hfit hin (by
            rw [popDisp, Int.zero_add]; exact hslot r s ha)⟩
        | some m =>
          cases hp
          split at hmid
          · cases hmid
          have hm : entryFixed ((B.code e.trg).map Prod.fst) = some m :=
            hB.fixedScan f hf _ _ (by rw [← r2]; exact hmid)
          obtain ⟨c, hc, hfit⟩ := push_fits hN (js := (T f).jit (dead f)) (o := false) (x := true)
            (ht := v) (b := co.start e.src) (trg := co.start e.trg) (mid := some m)
            (by simp [pushMove, FuncSummary.jit, hmid]) (scratchOk_of_scan (fixed_scan hm).1) (w := 16)
            (belowSp_le _ _ _) (X := B.Spoils jf co dead f .push (.edge e))
            (fun r hr => .inr (scratchFree_dead (fixed_scan hm).1 r hr))
          exact ⟨c, hc, fun r s ha => hfit hin (by
            simp only [popDisp, entryFixed_offset hm, Int.zero_add]; exact hslot r s ha)⟩
  · obtain ⟨⟨n, k', a⟩, he, hk⟩ := List.mem_map.1 hx
    injection hk with hk1 hk2
    subst hk1 hk2
    simp only
    have hp := (low_pushes h).2 _ he
    have hn : n.1 ∈ co.blocks f := b2 _ he
    unfold blockPushOf at hp
    cases hh : (T f).blockEntrySPHeight.lookup (co.start n.1) with
    | none => simp only [hh] at hp; cases hp
    | some v =>
      have hd := (analyse_heights hb.code hb.sums hf (hB.starts f hf) hn).2 hh
      have hv := hB.heightIn f hf _ hn _ hd
      have hslot : ∀ r s, B.AtPush f r (.blk n.1) s → s.regs .rsp + BitVec.ofInt 64 v = r := by
        intro r s ha
        have := atHeight_slot ha
        rw [hv] at this
        rwa [show (-8 : Int) - (-8 - v) = v by omega] at this
      simp only [hh, bind, Option.bind] at hp
      split at hp
      · rename_i hu
        cases hp
        have hin := (inRegOf_iff f).2 hu
        obtain ⟨c, hc, hfit⟩ := save_fits hN (hB.choice hb hf hin) v
        exact ⟨c, hc, fun r s ha => hfit hin (hslot r s ha)⟩
      · rename_i hu
        have hin : ¬ inRegOf fl T f := fun h => hu ((inRegOf_iff f).1 h)
        generalize hmid : (if fl.disableRegSaveOpt = true then none
          else (T f).entryData.lookup (co.start n.1)) = mid at hp
        cases mid with
        | none =>
          cases hp
          obtain ⟨c, hc, hfit⟩ := push_fits hN (js := (T f).jit (dead f)) (o := false) (x := false)
            (ht := v) (b := co.start n.1) (trg := 0) (mid := none) rfl (hB.noMove hf) (w := 16)
            (belowSp_le _ _ _) (X := B.Spoils jf co dead f .push (.blk n.1)) (fun r hr => hr)
          exact ⟨c, hc, fun r s ha => hfit hin (by
            rw [popDisp, Int.zero_add]; exact hslot r s ha)⟩
        | some m =>
          cases hp
          split at hmid
          · cases hmid
          have hm : entryData ((B.code n.1).map Prod.fst) = some m :=
            hB.entryScan f hf _ _ (by rw [← r1]; exact hmid)
          obtain ⟨_, i, rest, _, _, _, _, hsc⟩ := C26_entry_position _ _ hm
          obtain ⟨c, hc, hfit⟩ := push_fits hN (js := (T f).jit (dead f)) (o := true) (x := false)
            (ht := v) (b := co.start n.1) (trg := 0) (mid := some m)
            (by simp [pushMove, FuncSummary.jit, hmid]) (scratchOk_of_scan hsc) (w := 8)
            belowSp_moved (X := B.Spoils jf co dead f .push (.insn n.1 m.newAddr)) (spoils_entry hm)
          refine ⟨c, hc, fun r s ha => hfit hin ?_⟩
          have := hB.moved hm ha
          rw [hv] at this
          rwa [show (-8 : Int) - (-8 - v) = v by omega] at this

theorem lowered_checks (hB : BinaryOk B fl jf co info R bf dead frame)
    (hb : Built fl skip co info R T bf plan) {f : Func} (hf : f ∈ co.funcs) {L : Lowered}
    (h : doLowering fl co f (some (T f)) = some (some L)) {pl : Place} {k : PopKind}
    (hx : (pl, k) ∈ (Plan.lowered L).checks) :
    ∃ c, k.emit jf ((T f).jit (dead f)) co pl = some c ∧ ∀ r s, B.AtCheck f r pl s →
      SnipFitsIn (inRegOf fl T f) (frame f) (B.Spoils jf co dead f .check pl) pl.width c s r .check := by
  obtain ⟨r1, r2, r3, r4⟩ := analyse_regs hb.code hb.sums hf
  have hN := hB.normal
  obtain ⟨⟨b, k', a⟩, he, hk⟩ := List.mem_map.1 hx
  injection hk with hk1 hk2
  subst hk1 hk2
  simp only
  have hout : B.hout f b = -8 := by
    obtain ⟨r, reach, cs, _, _, _, hl⟩ := low_facts hb.asserts h
    obtain ⟨h1, h2⟩ := (hl.pops b).1 (List.mem_map.2 ⟨_, he, rfl⟩)
    exact hB.exit f hf b h1 h2
  have hp := low_pops h _ he
  unfold popOf at hp
  simp only at hp
  split at hp
  · cases hp
  have hslot : ∀ r s, B.AtCheck f r (.blk b) s → s.regs .rsp = r := by
    intro r s ha
    have : AtHeight r (B.hout f b) s := ha
    rwa [hout, atHeight_entry] at this
  split at hp
  · rename_i hu
    cases hp
    have hin := (inRegOf_iff f).2 hu
    obtain ⟨c, hc, hfit⟩ := compare_fits hN (hB.choice hb hf hin)
    exact ⟨c, hc, fun r s ha => hfit hin (hslot r s ha)⟩
  · rename_i hu
    have hin : ¬ inRegOf fl T f := fun h => hu ((inRegOf_iff f).1 h)
    generalize hmid : (if fl.disableRegSaveOpt = true then none
      else (T f).exitData.lookup (co.start b)) = mid at hp
    cases mid with
    | none =>
      cases hp
      obtain ⟨c, hc, hfit⟩ := check_fits hN (js := (T f).jit (dead f)) (o := false)
        (b := co.start b) (addr := co.last b) (mid := none) rfl (hB.dead f hf).atExit (w := 16) (belowSp_le _ _ _)
        (X := B.Spoils jf co dead f .check (.blk b)) noMoveExit_free
      exact ⟨c, hc, fun r s ha => hfit hin (by simp [popDisp, hslot r s ha])⟩
    | some m =>
      cases hp
      split at hmid
      · cases hmid
      have hm : exitData ((B.code b).map Prod.fst) = some m :=
        hB.exitScan f hf _ _ (by rw [← r3]; exact hmid)
      obtain ⟨_, i, rest, _, _, _, _, _, hsc⟩ := C27_exit_position _ _ hm
      obtain ⟨c, hc, hfit⟩ := check_fits hN (js := (T f).jit (dead f)) (o := true)
        (b := co.start b) (addr := co.last b) (mid := some m)
        (by simp [popMove, FuncSummary.jit, hmid]) (scratchOk_of_scan hsc) (w := 8) belowSp_moved
        (X := B.Spoils jf co dead f .check (.insn b m.newAddr)) (spoils_exit hm)
      exact ⟨c, hc, fun r s ha => hfit hin (hB.movedCheck hm hout ha)⟩

theorem light_stack {co : CodeObj} {f : BFunc} {s : Option FuncSummary} {st st' : Stats} {p : Plan}
    (h : instrumentLight fl co f s st = some (p, st')) (hx : p.sites ≠ [] ∨ p.checkSites ≠ []) :
    useRegFrame fl s = false := by
  unfold instrumentLight at h
  simp only [bind, Option.bind] at h
  split at h
  · cases h
  rename_i lo hlo
  cases lo with
  | some L => cases h; rcases hx with hx | hx <;> exact absurd rfl hx
  | none =>
    simp only at h
    split at h
    · cases h; rcases hx with hx | hx <;> exact absurd rfl hx
    · rename_i hu
      simpa using hu

theorem nonreturning_of_noCall {es : List Edge} (h : ∀ e ∈ es, e.type ≠ .call) :
    isNonreturningCall es = false := by
  unfold isNonreturningCall
  simp only [Bool.and_eq_false_iff, List.any_eq_false]
  exact .inl fun e he => by simpa using h e he

theorem site_pushes (hB : BinaryOk B fl jf co info R bf dead frame)
    (hb : Built fl skip co info R T bf plan) {f : Func} (hf : f ∈ co.funcs) {x : Pt × PushKind}
    (hx : x ∈ (plan f).sites) :
    ∃ c, x.2.emit jf ((T f).jit (dead f)) co x.1.place = some c ∧ ∀ r s, B.AtPush f r x.1.place s →
      SnipFitsIn (inRegOf fl T f) (frame f) (B.Spoils jf co dead f .push x.1.place) x.1.place.width c s r .push := by
  obtain ⟨r1, r2, r3, r4⟩ := analyse_regs hb.code hb.sums hf
  have hN := hB.normal
  have hv := hb.view f hf
  obtain ⟨ws, an, st, st', han, hplan⟩ := (hb.cases hf).resolve_left fun h => by
    rw [h.2] at hx
    cases hx
  obtain ⟨st0, hl⟩ := function_light hplan (.inl (List.ne_nil_of_mem hx))
  have hs : (an (bf f).base).map Prod.fst = some (T f) := by rw [hv.base, han]; rfl
  rw [hs] at hl
  have hin : ¬ inRegOf fl T f := by
    unfold inRegOf
    rw [light_stack hl (.inl (List.ne_nil_of_mem hx))]
    exact Bool.false_ne_true
  obtain ⟨q, m, a, b, h1, h2, h3⟩ := (light_sites hl).1 _ hx
  obtain ⟨pt, k⟩ := x
  simp only at h1 h2
  subst h2
  obtain ⟨_, hm1, hm2⟩ := move_spec h1
  have hslow : ∀ b xs, checkFastPath fl.disableLowering (bf f).cfg = some (b, xs) → B.hin f b = -8 := by
    intro b xs h
    have := (C66_fast_path_heights h hv.ok (hB.edges f hf)).1
    omega
  cases m with
  | false =>
    have := hm1 rfl
    subst this
    have hne : pt.kind ≠ .insn := by
      rcases h3 with ⟨h3, _⟩ | ⟨h3, _⟩ <;> rw [h3] <;> exact nofun
    have hpl : pt.place = .blk pt.blk := by unfold Pt.place; rw [if_neg hne]
    have hh : B.hin f pt.blk = -8 := by
      rcases h3 with ⟨_, h3⟩ | ⟨_, xs, h3⟩
      · rw [hv.entries] at h3
        rw [List.mem_singleton.1 h3]; exact hB.entry f hf
      · exact hslow _ _ h3
    obtain ⟨c, hc, hfit⟩ := push_fits hN (js := (T f).jit (dead f)) (o := false) (x := false)
      (ht := 0) (b := co.start pt.blk) (trg := 0) (mid := none) rfl (hB.noMove hf) (w := 16)
      (belowSp_le _ _ _) (X := B.Spoils jf co dead f .push (.blk pt.blk)) (fun r hr => hr)
    simp only [hpl]
    refine ⟨c, hc, fun r s ha => hfit hin ?_⟩
    have ha' : AtHeight r (B.hin f pt.blk) s := ha
    rw [hh, atHeight_entry] at ha'
    simp [popDisp, ha']
  | true =>
    obtain ⟨k1, k2, k3, s', k4, k5⟩ := hm2 rfl
    cases k4
    have hpl : pt.place = .insn pt.blk pt.addr := by unfold Pt.place; rw [if_pos k1]
    have hlk : (∃ mid, (T f).entryData.lookup ((bf f).start pt.blk) = some mid ∧ pt.addr = mid.newAddr) ∧
        B.hin f pt.blk = -8 := by
      rcases k5 with ⟨_, k6, _, k⟩ | ⟨e, k6, k⟩ | ⟨k, _⟩
      · refine ⟨k, ?_⟩
        rw [hv.cfgEntries] at k6
        injection k6 with k6
        rw [← k6]; exact hB.entry f hf
      · refine ⟨k, ?_⟩
        rcases h3 with ⟨h3, _⟩ | ⟨_, xs, h3⟩
        · rw [e] at h3; cases h3
        · rw [k6]; exact hslow _ _ h3
      · rcases h3 with ⟨h3, _⟩ | ⟨h3, _⟩ <;> rcases k with k | k <;> rw [h3] at k <;> cases k
    obtain ⟨⟨mid, hl1, hl2⟩, hh⟩ := hlk
    rw [hB.start f hf] at hl1
    have hm : entryData ((B.code pt.blk).map Prod.fst) = some mid :=
      hB.entryScan f hf _ _ (by rw [← r1]; exact hl1)
    obtain ⟨_, i, rest, _, _, _, _, hsc⟩ := C26_entry_position _ _ hm
    obtain ⟨c, hc, hfit⟩ := push_fits hN (js := (T f).jit (dead f)) (o := true) (x := false)
      (ht := 0) (b := co.start pt.blk) (trg := 0) (mid := some mid)
      (by simp [pushMove, FuncSummary.jit, hl1]) (scratchOk_of_scan hsc) (w := 8) belowSp_moved
      (X := B.Spoils jf co dead f .push (.insn pt.blk mid.newAddr)) (spoils_entry hm)
    rw [← hl2] at hfit
    simp only [hpl]
    refine ⟨c, hc, fun r s ha => hfit hin ?_⟩
    rw [hl2] at ha
    have := hB.moved hm ha
    rwa [hh] at this

theorem site_checks (hB : BinaryOk B fl jf co info R bf dead frame)
    (hb : Built fl skip co info R T bf plan) {f : Func} (hf : f ∈ co.funcs)
    (hcall : NoCallAtCheck fl co (bf f)) {x : Pt × PopKind} (hx : x ∈ (plan f).checkSites) :
    ∃ c, x.2.emit jf ((T f).jit (dead f)) co x.1.place = some c ∧ ∀ r s, B.AtCheck f r x.1.place s →
      SnipFitsIn (inRegOf fl T f) (frame f) (B.Spoils jf co dead f .check x.1.place) x.1.place.width c s r .check := by
  obtain ⟨r1, r2, r3, r4⟩ := analyse_regs hb.code hb.sums hf
  have hN := hB.normal
  have hv := hb.view f hf
  obtain ⟨ws, an, st, st', han, hplan⟩ := (hb.cases hf).resolve_left fun h => by
    rw [h.2] at hx
    cases hx
  obtain ⟨st0, hl⟩ := function_light hplan (.inr (List.ne_nil_of_mem hx))
  have hs : (an (bf f).base).map Prod.fst = some (T f) := by rw [hv.base, han]; rfl
  rw [hs] at hl
  have hin : ¬ inRegOf fl T f := by
    unfold inRegOf
    rw [light_stack hl (.inr (List.ne_nil_of_mem hx))]
    exact Bool.false_ne_true
  obtain ⟨q, m, a, b, h1, h2, h3⟩ := (light_sites hl).2 _ hx
  obtain ⟨pt, k⟩ := x
  simp only at h1 h2
  subst h2
  obtain ⟨_, hm1, hm2⟩ := move_spec h1
  have hout : B.hout f q.blk = -8 := by
    rcases h3 with ⟨_, h4, h5⟩ | ⟨_, b, xs, h4, h5⟩
    · rw [hv.exits] at h4
      exact hB.exit f hf _ h4 h5
    · rcases (C66_fast_path_heights h4 hv.ok (hB.edges f hf)).2 _ h5 with h6 | h6
      · exact hB.exit f hf _ ((hv.cfgExits _).1 h6) (nonreturning_of_noCall (hcall _ _ h4 _ h5))
      · omega
  have hblk : pt.blk = q.blk := by
    cases m with
    | false => rw [hm1 rfl]
    | true =>
      obtain ⟨_, _, _, s', _, k5⟩ := hm2 rfl
      rcases k5 with ⟨k, _⟩ | ⟨_, k, _⟩ | ⟨_, k, _⟩
      · rcases h3 with ⟨h3, _⟩ | ⟨h3, _⟩ <;> rw [h3] at k <;> cases k
      · exact k
      · exact k
  rw [← hblk] at hout
  cases m with
  | false =>
    have := hm1 rfl
    subst this
    have hne : pt.kind ≠ .insn := by
      rcases h3 with ⟨h3, _⟩ | ⟨h3, _⟩ <;> rw [h3] <;> exact nofun
    have hpl : pt.place = .blk pt.blk := by unfold Pt.place; rw [if_neg hne]
    obtain ⟨c, hc, hfit⟩ := check_fits hN (js := (T f).jit (dead f)) (o := false)
      (b := co.start pt.blk) (addr := co.last pt.blk) (mid := none) rfl (hB.dead f hf).atExit (w := 16) (belowSp_le _ _ _)
      (X := B.Spoils jf co dead f .check (.blk pt.blk)) noMoveExit_free
    simp only [hpl]
    refine ⟨c, hc, fun r s ha => hfit hin ?_⟩
    have ha' : AtHeight r (B.hout f pt.blk) s := ha
    rw [hout, atHeight_entry] at ha'
    simp [popDisp, ha']
  | true =>
    obtain ⟨k1, k2, k3, s', k4, k5⟩ := hm2 rfl
    cases k4
    have hpl : pt.place = .insn pt.blk pt.addr := by unfold Pt.place; rw [if_pos k1]
    have hlk : ∃ mid, (T f).exitData.lookup ((bf f).start pt.blk) = some mid ∧ pt.addr = mid.newAddr := by
      rcases k5 with ⟨k, _⟩ | ⟨k, _⟩ | ⟨_, _, k⟩
      · rcases h3 with ⟨h3, _⟩ | ⟨h3, _⟩ <;> rw [h3] at k <;> cases k
      · rcases h3 with ⟨h3, _⟩ | ⟨h3, _⟩ <;> rw [h3] at k <;> cases k
      · exact k
    obtain ⟨mid, hl1, hl2⟩ := hlk
    rw [hB.start f hf] at hl1
    have hm : exitData ((B.code pt.blk).map Prod.fst) = some mid :=
      hB.exitScan f hf _ _ (by rw [← r3]; exact hl1)
    obtain ⟨_, i, rest, _, _, _, _, _, hsc⟩ := C27_exit_position _ _ hm
    obtain ⟨c, hc, hfit⟩ := check_fits hN (js := (T f).jit (dead f)) (o := true)
      (b := co.start pt.blk) (addr := co.last pt.blk) (mid := some mid)
      (by simp [popMove, FuncSummary.jit, hl1]) (scratchOk_of_scan hsc) (w := 8) belowSp_moved
      (X := B.Spoils jf co dead f .check (.insn pt.blk mid.newAddr)) (spoils_exit hm)
    rw [← hl2] at hfit
    simp only [hpl]
    refine ⟨c, hc, fun r s ha => hfit hin ?_⟩
    rw [hl2] at ha
    exact hB.movedCheck hm hout ha

/-- What the plan of a function can be. -/
theorem Built.strategy (hb : Built fl skip co info R T bf plan) {f : Func} (hf : f ∈ co.funcs) :
    plan f = .skipped ∨ Strategy fl co (bf f) (some (T f)) (plan f) := by
  have hv := hb.view f hf
  rcases hb.cases hf with h | ⟨ws, an, st, st', han, hplan⟩
  · exact .inl h.2
  have hsum : summaryOf fl an (bf f) = some (T f) := by
    unfold summaryOf
    rw [if_pos hb.light, hv.base, han]
    rfl
  have h40 := (C40_strategy hplan).1 hb.light
  rw [hsum] at h40
  by_cases hk : (plan f).kind = .skipped
  · left
    cases hp : plan f <;> rw [hp] at hk <;> first | rfl | cases hk
  · exact .inr (h40.2 hk)

theorem width_le (pl : Place) : pl.width ≤ 16 := by cases pl <;> simp [Place.width]

/-- For every push of every plan the emitter returns code; what it may destroy. -/
theorem plan_pushes (hB : BinaryOk B fl jf co info R bf dead frame)
    (hb : Built fl skip co info R T bf plan) {f : Func} (hf : f ∈ co.funcs) {pl : Place} {k : PushKind}
    (hx : (pl, k) ∈ (plan f).pushes) :
    ∃ c, k.emit jf ((T f).jit (dead f)) co pl = some c ∧ ∀ r s, B.AtPush f r pl s →
      SnipFitsIn (inRegOf fl T f) (frame f) (B.Spoils jf co dead f .push pl) pl.width c s r .push := by
  rcases hb.strategy hf with h | h
  · rw [h] at hx; cases hx
  · generalize hp : plan f = p at h
    rw [hp] at hx
    cases h with
    | lowered h =>
      rw [(hb.view f hf).func] at h
      exact lowered_pushes hB hb hf h hx
    | regFrame _ e h1 h2 h3 h4 h5 =>
      cases e
      have hin : inRegOf fl T f := (useRegFrame_iff fl _).2 ⟨h1, _, rfl, h2, h3, h4, h5⟩
      obtain ⟨b, hbm, e⟩ := List.mem_map.1 hx
      injection e with e1 e2
      subst e1 e2
      rw [(hb.view f hf).entries] at hbm
      rw [List.mem_singleton.1 hbm]
      obtain ⟨c, hc, hfit⟩ := save_fits hB.normal (hB.choice hb hf hin) 0
      refine ⟨c, hc, fun r s ha => hfit hin ?_⟩
      have ha' : AtHeight r (B.hin f (co.entry f)) s := ha
      rw [hB.entry f hf, atHeight_entry] at ha'
      simp [ha']
    | fastPath =>
      have e := List.mem_singleton.1 hx
      injection e with e1 e2
      subst e1 e2
      exact site_pushes hB hb hf (by rw [hp]; exact List.mem_cons_self)
    | entryExit =>
      obtain ⟨x, hxm, e⟩ := List.mem_map.1 hx
      injection e with e1 e2
      subst e1 e2
      exact site_pushes hB hb hf (by rw [hp]; exact hxm)

/-- For every check of every plan the emitter returns code; what it may destroy. -/
theorem plan_checks (hB : BinaryOk B fl jf co info R bf dead frame)
    (hb : Built fl skip co info R T bf plan) {f : Func} (hf : f ∈ co.funcs)
    (hcall : NoCallAtCheck fl co (bf f)) {pl : Place} {k : PopKind} (hx : (pl, k) ∈ (plan f).checks) :
    ∃ c, k.emit jf ((T f).jit (dead f)) co pl = some c ∧ ∀ r s, B.AtCheck f r pl s →
      SnipFitsIn (inRegOf fl T f) (frame f) (B.Spoils jf co dead f .check pl) pl.width c s r .check := by
  rcases hb.strategy hf with h | h
  · rw [h] at hx; cases hx
  · generalize hp : plan f = p at h
    rw [hp] at hx
    cases h with
    | lowered h =>
      rw [(hb.view f hf).func] at h
      exact lowered_checks hB hb hf h hx
    | regFrame _ e h1 h2 h3 h4 h5 =>
      cases e
      have hin : inRegOf fl T f := (useRegFrame_iff fl _).2 ⟨h1, _, rfl, h2, h3, h4, h5⟩
      obtain ⟨b, hbm, e⟩ := List.mem_map.1 hx
      injection e with e1 e2
      subst e1 e2
      have hbm' := List.mem_filter.1 hbm
      rw [(hb.view f hf).exits] at hbm'
      have hout := hB.exit f hf b hbm'.1 (by simpa using hbm'.2)
      obtain ⟨c, hc, hfit⟩ := compare_fits hB.normal (hB.choice hb hf hin)
      refine ⟨c, hc, fun r s ha => hfit hin ?_⟩
      have ha' : AtHeight r (B.hout f b) s := ha
      rwa [hout, atHeight_entry] at ha'
    | fastPath =>
      obtain ⟨x, hxm, e⟩ := List.mem_map.1 hx
      injection e with e1 e2
      subst e1 e2
      exact site_checks hB hb hf hcall (by rw [hp]; exact hxm)
    | entryExit =>
      obtain ⟨x, hxm, e⟩ := List.mem_map.1 hx
      injection e with e1 e2
      subst e1 e2
      exact site_checks hB hb hf hcall (by rw [hp]; exact hxm)

/-- C80.  For every push of every plan the emitter returns code; where the plan puts it, this
code is a push of the right kind which takes the return address from where it is stored. -/
theorem C80_pushes (hB : BinaryOk B fl jf co info R bf dead frame)
    (hb : Built fl skip co info R T bf plan) {f : Func} (hf : f ∈ co.funcs) {pl : Place} {k : PushKind}
    (hx : (pl, k) ∈ (plan f).pushes) :
    ∃ c, k.emit jf ((T f).jit (dead f)) co pl = some c ∧ ∀ r s, B.AtPush f r pl s →
      SnipFits (inRegOf fl T f) (frame f) c s r .push := by
  obtain ⟨c, h1, h2⟩ := plan_pushes hB hb hf hx
  exact ⟨c, h1, fun r s h => (h2 r s h).fits (width_le pl)⟩

/-- C80.  The same for checks, if no call comes before a check of the fast path. -/
theorem C80_checks (hB : BinaryOk B fl jf co info R bf dead frame)
    (hb : Built fl skip co info R T bf plan) {f : Func} (hf : f ∈ co.funcs)
    (hcall : NoCallAtCheck fl co (bf f)) {pl : Place} {k : PopKind} (hx : (pl, k) ∈ (plan f).checks) :
    ∃ c, k.emit jf ((T f).jit (dead f)) co pl = some c ∧ ∀ r s, B.AtCheck f r pl s →
      SnipFits (inRegOf fl T f) (frame f) c s r .check := by
  obtain ⟨c, h1, h2⟩ := plan_checks hB hb hf hcall hx
  exact ⟨c, h1, fun r s h => (h2 r s h).fits (width_le pl)⟩

/-- Every snippet of the plan fits. -/
theorem snippets_fit (hB : BinaryOk B fl jf co info R bf dead frame)
    (hb : Built fl skip co info R T bf plan) (hcall : ∀ f ∈ co.funcs, NoCallAtCheck fl co (bf f))
    {f : Func} (hf : f ∈ co.funcs) {ev : Ev} {c : Code} {s : State} {r : W}
    (h : B.Snippet jf (fun f => (T f).jit (dead f)) co plan f ev c s r) :
    SnipFits (inRegOf fl T f) (frame f) c s r ev := by
  cases ev with
  | block => exact h.elim
  | push =>
    obtain ⟨pl, k, h1, h2, h3⟩ := h
    obtain ⟨c', h4, h5⟩ := C80_pushes hB hb hf h1
    rw [h4] at h2
    cases h2
    exact h5 _ _ h3
  | check =>
    obtain ⟨pl, k, h1, h2, h3⟩ := h
    obtain ⟨c', h4, h5⟩ := C80_checks hB hb hf (hcall f hf) h1
    rw [h4] at h2
    cases h2
    exact h5 _ _ h3

/-- C80.  In a program analysed and instrumented by the tool, executed with the code emitted for
its plans, dangerous moments find all return addresses in the shadow region or a frame register,
no return is unchecked, and only an overwritten return address raises an alarm.  Missing:
recursion, calls before checks of the fast path, tail jumps to unsafe or unknown functions and functions
left out, for which it is false. -/
theorem C80_planned_partial (hB : BinaryOk B fl jf co info R bf dead frame)
    (hb : Built fl skip co info R T bf plan) (hnr : ∀ f ∈ co.funcs, CallsCovered T f)
    (hcall : ∀ f ∈ co.funcs, NoCallAtCheck fl co (bf f)) (htail : ∀ f ∈ co.funcs, TailsOk co T f)
    (hleft : ∀ f ∈ co.funcs, LeftOk skip co T bf f) (g : W) (f : Func) :
    EProtected (semOf co info plan (inRegOf fl T) (staysOf bf)) frame
      (B.Snippet jf (fun f => (T f).jit (dead f)) co plan) g f :=
  (C79_machine_partial hb hcall hnr htail hleft frame g f).planned fun _ _ _ _ _ _ ht h =>
    snippets_fit hB hb hcall (And.left (b := ∃ _, _) ht) h

end

end Verif
