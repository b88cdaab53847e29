import Verif.HeapRun
import Verif.HeapSound
import Verif.Props.HeapSample

/-!
# C73: what one step of the heap analysis does, exactly
-/

namespace Verif

/-! ## Calls -/

/-- The edges by which a block calls something resolved. -/
def resolvedCalls (I : HeapIn) (b : Blk) : List Edge :=
  (I.co.targets b).filter fun e => e.type == .call && !e.sink

theorem callTarget_last (I : HeapIn) (l : List Edge) (t : Nat) :
    l.foldl (fun t e => if e.type == .call && !e.sink then I.co.start e.trg else t) t =
      (((l.filter fun e => e.type == .call && !e.sink).getLast?).map fun e =>
        I.co.start e.trg).getD t := by
  induction l generalizing t with
  | nil => rfl
  | cons e l ih =>
    rw [List.foldl_cons, ih, List.filter_cons]
    split
    · rw [List.getLast?_cons]
      cases (l.filter fun e => e.type == .call && !e.sink).getLast? <;> rfl
    · rfl

/-- The names which the analysis takes for allocators. -/
def KnownAllocator (name : List Char) : Prop :=
  name = "malloc".toList ∨ "_Zna".toList <+: name

/-- The analysis takes the call which ends block `b` for an allocation. -/
def AllocCall (I : HeapIn) (b : Blk) : Prop :=
  ∃ e name, (resolvedCalls I b).getLast? = some e ∧ I.co.start e.trg ≠ 0 ∧
    I.co.linkage (I.co.start e.trg) = some name ∧ KnownAllocator name

theorem setToHeap_iff (I : HeapIn) (b : Blk) : setToHeap I b = true ↔ AllocCall I b := by
  unfold setToHeap AllocCall
  have hc : callTarget I b = (((resolvedCalls I b).getLast?).map fun e =>
      I.co.start e.trg).getD 0 := callTarget_last I _ 0
  rw [hc]
  cases hl : (resolvedCalls I b).getLast? with
  | none => simp
  | some e =>
    simp only [Option.map_some, Option.getD_some, Bool.and_eq_true, bne_iff_ne,
      Option.some.injEq]
    constructor
    · rintro ⟨h1, h2⟩
      cases hk : I.co.linkage (I.co.start e.trg) with
      | none => rw [hk] at h2; cases h2
      | some name =>
        rw [hk] at h2
        simp only [Bool.or_eq_true, decide_eq_true_eq] at h2
        exact ⟨e, name, rfl, h1, hk, h2.imp id (strFind_zero _ _).1⟩
    · rintro ⟨e', name, rfl, h1, h2, h3⟩
      refine ⟨h1, ?_⟩
      rw [h2]
      simp only [Bool.or_eq_true, decide_eq_true_eq]
      exact h3.imp id (strFind_zero _ _).2

/-- Registers which a call overwrites, apart from the result. -/
def callScratch : List Reg := [.rcx, .rdx, .rsi, .rdi, .r8, .r9, .r10, .r11]

/-- C73.  After a call the result is HEAP exactly if the analysis takes the call for an
allocation, and TOP otherwise. -/
theorem C73_call_result_partial (I : HeapIn) (b : Blk) (c : HCtx) :
    (AllocCall I b → amGet (handleCall I b c).regs (some (.gpr .rax)) = some (.flat .heap)) ∧
    (¬ AllocCall I b → amGet (handleCall I b c).regs (some (.gpr .rax)) = some (.flat .top)) := by
  constructor
  · intro h
    unfold handleCall
    rw [if_neg (by rw [(setToHeap_iff I b).2 h]; decide)]
    simp [HCtx.setReg, amGet_amSet, ALoc.assign, ALoc.flat]
  · intro h
    unfold handleCall
    rw [if_pos (by
      cases e : setToHeap I b
      · rfl
      · exact absurd ((setToHeap_iff I b).1 e) h)]
    simp [HCtx.setReg, amGet_amSet, ALoc.assign, ALoc.flat]

/-- C73.  A call makes the scratch registers TOP and changes nothing else. -/
theorem C73_call_rest (I : HeapIn) (b : Blk) (c : HCtx) :
    (∀ r, r ∈ callScratch → amGet (handleCall I b c).regs (some (.gpr r)) = some (.flat .top)) ∧
    (∀ k, k ≠ some (.gpr .rax) → (∀ r, r ∈ callScratch → k ≠ some (.gpr r)) →
      amGet (handleCall I b c).regs k = amGet c.regs k) ∧
    (handleCall I b c).stack = c.stack := by
  refine ⟨fun r hr => ?_, fun k h1 h2 => ?_, ?_⟩
  · unfold handleCall
    split <;> cases r <;> simp [callScratch] at hr <;>
      simp [HCtx.setReg, amGet_amSet, ALoc.assign, ALoc.flat]
  · have hs : ∀ r, r ∈ callScratch → ¬ (some (HReg.gpr r) = k) := fun r hr e => h2 r hr e.symm
    have h0 : ¬ (some (HReg.gpr .rax) = k) := fun e => h1 e.symm
    simp only [callScratch, List.forall_mem_cons] at hs
    unfold handleCall
    split <;> simp [HCtx.setReg, amGet_amSet, hs, h0]
  · unfold handleCall
    split <;> rfl

/-- The call in block 0 of the sample is taken for an allocation, that in block 1 is none. -/
example : AllocCall heapSample 0 ∧ ¬ AllocCall heapSample 1 :=
  ⟨(setToHeap_iff _ _).1 (by decide +kernel), fun h => by
    have := (setToHeap_iff _ _).2 h
    revert this
    decide +kernel⟩

/-- The sample with another allocator. -/
def newIn : HeapIn :=
  { heapSample with co := { heapCode with
      linkage := fun a => if a = 4096 + 16 * 9 then some "_Znwm".toList else none } }

/-- C73 is false of `operator new`: what it returns is not HEAP. -/
theorem C73_refuted : ∃ (I : HeapIn) (b : Blk) (e : Edge), (resolvedCalls I b) = [e] ∧
    I.co.linkage (I.co.start e.trg) = some "_Znwm".toList ∧
    ∀ c, amGet (handleCall I b c).regs (some (.gpr .rax)) = some (.flat .top) := by
  refine ⟨newIn, 0, ⟨0, 0, 9, .call, false, true⟩, by decide +kernel, by decide +kernel,
    fun c => (C73_call_result_partial newIn 0 c).2 fun h => ?_⟩
  have := (setToHeap_iff _ _).2 h
  revert this
  decide +kernel

/-! ## Operands -/

/-- The operand computes something. -/
def HExpr.Computes : HExpr → Prop
  | .reg _ | .imm => False
  | .deref e => e.Computes
  | .bin .. => True

/-- The operand has an addition in it. -/
def HExpr.Adds : HExpr → Prop
  | .reg _ | .imm => False
  | .deref e => e.Adds
  | .bin add l r => add = true ∨ l.Adds ∨ r.Adds

theorem apply_complex : ∀ (e : HExpr) (v : RegVisitor),
    (e.apply v).complex = true ↔ v.complex = true ∨ e.Computes
  | .reg r, v => by
    unfold HExpr.apply
    split
    · simp [HExpr.Computes]
    · split <;> simp [HExpr.Computes]
  | .imm, v => by simp [HExpr.apply, HExpr.Computes]
  | .deref e, v => apply_complex e v
  | .bin a l r, v => by simp [HExpr.apply, HExpr.Computes]

theorem apply_addFound : ∀ (e : HExpr) (v : RegVisitor),
    (e.apply v).addFound = true ↔ v.addFound = true ∨ e.Adds
  | .reg r, v => by
    unfold HExpr.apply
    split
    · simp [HExpr.Adds]
    · split <;> simp [HExpr.Adds]
  | .imm, v => by simp [HExpr.apply, HExpr.Adds]
  | .deref e, v => apply_addFound e v
  | .bin a l r, v => by
    have h1 := apply_addFound l v
    have h2 := apply_addFound r (l.apply v)
    simp only [HExpr.apply, HExpr.Adds, Bool.or_eq_true, h2, h1]
    constructor
    · rintro (((h | h) | h) | h)
      · exact .inl h
      · exact .inr (.inr (.inl h))
      · exact .inr (.inr (.inr h))
      · exact .inr (.inl h)
    · rintro (h | h | h | h)
      · exact .inl (.inl (.inl h))
      · exact .inr h
      · exact .inl (.inl (.inr h))
      · exact .inl (.inr h)

/-- C73.  The register found for the first operand is the one its address begins with. -/
theorem C73_first_operand {e : HExpr} {r : HReg} (h : e.pointer = some r) (o : Option HExpr) :
    (operandRegs (some e) o).1 = some r :=
  apply_pointer e {} rfl rfl h

/-- C73.  The same for the second operand, unless the first one computes its address without an
addition. -/
theorem C73_second_operand {e e' : HExpr} {r : HReg} (h : e'.pointer = some r)
    (hc : ¬ e.Computes ∨ e.Adds) : (operandRegs (some e) (some e')).2 = some r := by
  refine apply_pointer e' { e.apply {} with base := none } rfl ?_ h
  cases h1 : (e.apply {}).complex
  · rfl
  · rcases hc with hc | hc
    · exact ((apply_complex e {}).1 h1).elim nofun (absurd · hc)
    · simp [(apply_addFound e {}).2 (.inr hc)]

/-- C73, otherwise: the flags are not reset between operands, and a register as the second
operand is not seen. -/
theorem C73_second_operand_lost {e : HExpr} (hc : e.Computes) (ha : ¬ e.Adds) (r : HReg) :
    (operandRegs (some e) (some (.reg r))).2 = none := by
  have h1 := (apply_complex e {}).2 (.inr hc)
  have h2 : (e.apply {}).addFound = false := by
    cases h : (e.apply {}).addFound
    · rfl
    · exact ((apply_addFound e {}).1 h).elim nofun (absurd · ha)
  simp [operandRegs, parseOperand, HExpr.apply, h1, h2]

/-- `mov %rax, (,%rdx,8)` -/
example : (operandRegs (some (.deref (.bin false (.reg (.gpr .rdx)) .imm)))
    (some (.reg (.gpr .rax)))) = (some (.gpr .rdx), none) := by
  decide

/-- `mov %rax, 16(%rdx,%rcx,8)` -/
example : (operandRegs (some (.deref (.bin true (.bin true (.reg (.gpr .rdx))
    (.bin false (.reg (.gpr .rcx)) .imm)) .imm))) (some (.reg (.gpr .rax)))) =
    (some (.gpr .rdx), some (.gpr .rax)) := by
  decide

/-! ## Contexts and predecessors -/

/-- C73.  A new context knows nothing about each general register, and nothing else. -/
theorem C73_init : (∀ r, amGet HCtx.init.regs (some (.gpr r)) = some (.flat .bottom)) ∧
    (∀ n, amGet HCtx.init.regs (some (.other n)) = none) ∧ amGet HCtx.init.regs none = none ∧
    HCtx.init.stack = [] := by
  refine ⟨fun r => ?_, fun n => ?_, ?_, rfl⟩
  · cases r <;> decide
  · simp [HCtx.init, amGet]
  · decide

/-- C73.  What is merged at the beginning of a block: the last instructions of the blocks of the
function from which an edge leads to it, without exceptions and edges from other functions. -/
theorem C73_preds (I : HeapIn) (b : Blk) (n : HNode) :
    n ∈ predNodes I b ↔ ∃ e, e ∈ I.sources b ∧ e.interproc = false ∧ e.type ≠ .catch ∧
      e.src ∈ I.co.blocks I.f ∧ n = (e.src, (I.insns e.src).length - 1) := by
  unfold predNodes
  simp only [List.mem_map, List.mem_filter, Bool.and_eq_true, Bool.not_eq_true', bne_iff_ne,
    List.contains_iff_mem]
  constructor
  · rintro ⟨e, ⟨h1, ⟨h2, h3⟩, h4⟩, rfl⟩
    exact ⟨e, h1, h2, h3, h4, rfl⟩
  · rintro ⟨e, h1, h2, h3, h4, rfl⟩
    exact ⟨e, ⟨h1, ⟨h2, h3⟩, h4⟩, rfl⟩

/-! ## Assertions

`C47_never` says that no assertion fails; that is worth something only if the checks stand for
all assertions. -/

/-- C73.  The check of the merges covers every merge that is made. -/
theorem C73_merges_checked (info : HNode → HCtx) (n : HNode) (l : List HNode) (c : HCtx) :
    meetPredsOk info n c l = true ↔ ∀ x p y, l = x ++ p :: y → p ≠ n →
      (meetPreds info n c x).meetOk (info p) = true := by
  induction l generalizing c with
  | nil => simp [meetPredsOk]
  | cons q l ih =>
    simp only [meetPredsOk, Bool.and_eq_true, Bool.or_eq_true, decide_eq_true_eq, ih]
    constructor
    · rintro ⟨h1, h2⟩ x p y e hp
      cases x with
      | nil =>
        injection e with e1 e2
        subst e1
        exact h1.resolve_left hp
      | cons z x =>
        injection e with e1 e2
        subst e1
        exact h2 x p y e2 hp
    · intro h
      constructor
      · by_cases hq : q = n
        · exact .inl hq
        · exact .inr (h [] q l rfl hq)
      · intro x p y e hp
        exact h (q :: x) p y (by rw [e]; rfl) hp

/-- C73.  The check of an instruction covers every assignment of a location that it may make. -/
theorem C73_moves_checked {I : HeapIn} {i : HInsn} {c : HCtx} (ho : i.op = .mov)
    (h : transferOk I i c = true) :
    (c.reg (operandRegs i.op0 i.op1).2).assignOk = true ∧
    ∀ src dest, I.heights i.addr = some (src, dest) →
      (c.slot src).pointToOk = true ∧ (c.slot src).pointTo.assignOk = true := by
  unfold transferOk at h
  rw [ho] at h
  simp only [Bool.and_eq_true] at h
  refine ⟨h.1.1, fun src dest e => ?_⟩
  rw [e] at h
  simp only [Bool.and_eq_true] at h
  exact ⟨h.2.1.1, h.2.1.2⟩

/-- `INT_MAX` is the greatest 32-bit integer. -/
theorem intMax_greatest : (∀ x : BitVec 32, x.toInt ≤ intMax) ∧ ∃ x : BitVec 32, x.toInt = intMax := by
  refine ⟨fun x => ?_, 0x7fffffff, by decide⟩
  have := BitVec.toInt_lt (x := x)
  unfold intMax
  omega

end Verif
