import Verif.HeapSound

/-!
C61: writes reported as writes to the heap go to the heap.
-/

namespace Verif

theorem writeType_node {I : HeapIn} {info : HNode → HCtx} {b : Blk} {k : Nat} {i : HInsn}
    (hi : I.insn (b, k) = some i) (hn : ((I.insns b).map (·.addr)).Nodup) {e : HExpr} {r : Reg}
    (h0 : i.op0 = some (.deref e)) (hp : e.pointer = some (.gpr r)) :
    writeType I info b i.addr = some (((info (b, k)).view.r (some (.gpr r))).getD .bottom) := by
  have hk : (I.insns b)[k]? = some i := hi
  have hidx : (I.insns b).findIdx? (fun j => j.addr == i.addr) = some k := by
    rw [List.findIdx?_eq_some_iff_getElem]
    obtain ⟨hlt, hget⟩ := List.getElem?_eq_some_iff.1 hk
    refine ⟨hlt, by rw [hget]; simp, fun j hj => ?_⟩
    have := List.pairwise_iff_getElem.1 hn j k (by simp; omega) (by simpa using hlt) hj
    rw [List.getElem_map, List.getElem_map, hget] at this
    simpa using this
  unfold writeType
  rw [hidx]
  dsimp only
  rw [hi]
  dsimp only
  have : (parseOperand i.op0 {}).2 = some (.gpr r) := by
    rw [h0]
    unfold parseOperand
    dsimp only
    exact apply_pointer (.deref e) {} rfl rfl hp
  rw [this]
  dsimp only
  rw [reg_type]

/-- C61, part.  In every run in which the stack words the function loads are written only by its
own stores at known heights, an address which the analysis reports as HEAP is based on a pointer
from the allocator, or on a value for which the analysis has no location: a callee-saved register
or stack word of the caller, the stack pointer, a stored constant.  The same holds for ARG with
arguments and for HEAP_OR_ARG with either.  Left out: functions in which some instruction changes
no fact (`C61_refuted_idle`), untracked bases (`C61_refuted_frame`) and other writes to the
frame (`C61_refuted_stale`). -/
theorem C61_writes_partial {I : HeapIn} {dead : List Blk} {comps : List (List Blk)}
    {info : HNode → HCtx} (h : HeapSetting I dead comps info)
    (ha : Analyses I ([I.co.entry I.f] :: comps) (fun _ => HCtx.init) info)
    {b : Blk} {k : Nat} {i : HInsn} (hi : I.insn (b, k) = some i)
    (hn : ((I.insns b).map (·.addr)).Nodup) (hop : i.op = .mov ∨ i.op = .other)
    {e : HExpr} {r : Reg} (h0 : i.op0 = some (.deref e)) (hp : e.pointer = some (.gpr r))
    {s s' : PState} (hb : OBefore I true (b, k) s) (hs : OStep I true b i s s') :
    (writeType I info b i.addr = some .heap → s.regs r = .heap ∨ (s.regs r).Untracked) ∧
    (writeType I info b i.addr = some .arg → s.regs r = .arg ∨ (s.regs r).Untracked) ∧
    (writeType I info b i.addr = some .heapOrArg →
      s.regs r = .heap ∨ s.regs r = .arg ∨ (s.regs r).Untracked) := by
  obtain ⟨hv, hst⟩ := h.before ha hb ⟨i, hi, hs⟩
  rw [writeType_node hi hn h0 hp]
  have hr := hv.r r
  -- the register is as before, or its fact is TOP
  have key : s'.regs r = s.regs r ∨
      ((info (b, k)).view.r (some (.gpr r))).getD .bottom = .top := by
    rcases hop with hop | hop
    · left
      cases hs with
      | loadWord _ h2 => rw [h0] at h2; cases h2
      | load _ h2 => rw [h0] at h2; cases h2
      | move _ h2 => rw [h0] at h2; cases h2
      | imm _ h2 => rw [h0] at h2; cases h2
      | storeWord _ _ _ _ _ _ _ h8 => rw [h8]
      | store _ _ _ _ _ h6 => rw [h6]
      | lea h1 => rw [hop] at h1; cases h1
      | leaOther h1 => rw [hop] at h1; cases h1
      | call h1 => rw [hop] at h1; cases h1
      | callOther h1 => rw [hop] at h1; cases h1
      | other h1 => rw [hop] at h1; cases h1
    · by_cases hw : HReg.gpr r ∈ i.written
      · right
        rw [← hst]
        unfold effAt effOf
        rw [hi]
        dsimp only
        rw [hop]
        simp only [HEff.act]
        obtain ⟨o, ho⟩ := lastConst_some (unknownEff_mem.2 ⟨hw, rfl⟩)
        rw [ho, (unknownEff_mem.1 (lastConst_mem ho)).2]
        rfl
      · left
        cases hs with
        | other _ h2 => exact h2 r hw
        | loadWord h1 => rw [hop] at h1; cases h1
        | load h1 => rw [hop] at h1; cases h1
        | move h1 => rw [hop] at h1; cases h1
        | imm h1 => rw [hop] at h1; cases h1
        | storeWord h1 => rw [hop] at h1; cases h1
        | store h1 => rw [hop] at h1; cases h1
        | lea h1 => rw [hop] at h1; cases h1
        | leaOther h1 => rw [hop] at h1; cases h1
        | call h1 => rw [hop] at h1; cases h1
        | callOther h1 => rw [hop] at h1; cases h1
  simp only [Option.some.injEq]
  rcases key with e1 | e1
  · rw [e1] at hr
    refine ⟨fun ht => ?_, fun ht => ?_, fun ht => ?_⟩ <;> rw [ht] at hr <;>
      rcases hr with hr | hr | ⟨hr, hr'⟩ | ⟨hr, hr'⟩ | ⟨hr, hr'⟩ <;> first | cases hr; done | skip
    · exact .inr hr
    · exact .inl hr'
    · exact .inr hr
    · exact .inl hr'
    · exact .inr (.inr hr)
    · rcases hr' with h | h
      · exact .inl h
      · exact .inr (.inl h)
  · rw [e1]
    exact ⟨(nomatch ·), (nomatch ·), (nomatch ·)⟩

/-! ## The sample -/

theorem flow_blocks {I : HeapIn} {n m : HNode} (h : HFlow I n m) :
    n.1 = m.1 ∨ (n.1 ∈ I.co.blocks I.f ∧ ∃ e, e ∈ I.co.targets n.1 ∧ e.trg = m.1) := by
  cases h with
  | next _ _ => exact .inl rfl
  | edge h1 h2 _ _ _ => exact .inr ⟨h1, _, h2, rfl⟩

/-- A check for `Ordered`. -/
def orderedB (I : HeapIn) : List Blk → List (List Blk) → Bool
  | _, [] => true
  | done, comp :: comps =>
    comp.all (fun b => !done.contains b) &&
    (I.co.blocks I.f).all (fun b => (I.co.targets b).all fun e =>
      !comp.contains e.trg || comp.contains b || done.contains b) &&
    orderedB I (done ++ comp) comps

theorem orderedB_ok {I : HeapIn} : ∀ {comps : List (List Blk)} {done : List Blk},
    orderedB I done comps = true → Ordered I done comps
  | [], _, _ => .nil
  | comp :: comps, done, h => by
    unfold orderedB at h
    simp only [Bool.and_eq_true, List.all_eq_true] at h
    refine .cons (fun b hb => ?_) (fun n m hf hm => ?_) (orderedB_ok h.2)
    · have := h.1.1 b hb; simpa using this
    · rcases flow_blocks hf with e | ⟨h1, e, h2, h3⟩
      · left; rw [e]; exact hm
      · have := h.1.2 n.1 h1 e h2
        simp only [Bool.or_eq_true] at this
        rcases this with (h | h) | h
        · rw [h3] at h; simp at h; exact absurd hm h
        · exact .inl (by simpa using h)
        · exact .inr (by simpa using h)

/-- A check for the rest of the shape. -/
def shapeB (I : HeapIn) (comps : List (List Blk)) : Bool :=
  (I.co.blocks I.f).all (fun b => !(I.insns b).isEmpty &&
    (I.co.targets b).all (fun e =>
      (e.interproc || e.type == .catch || !(I.co.blocks I.f).contains e.trg ||
        (e.src == b && (I.sources e.trg).contains e)) &&
      (e.trg != I.co.entry I.f || (b != I.co.entry I.f && (e.interproc || e.type == .catch)))) &&
    (b == I.co.entry I.f || comps.flatten.contains b)) &&
  (I.co.blocks I.f).contains (I.co.entry I.f) && orderedB I [I.co.entry I.f] comps

theorem shapeB_ok {I : HeapIn} {comps : List (List Blk)} (h : shapeB I comps = true)
    (ho : ∀ l n, n ∈ I.order l ↔ n ∈ l) (one : OneCall I) : HeapShape I [] comps := by
  unfold shapeB at h
  simp only [Bool.and_eq_true, List.all_eq_true] at h
  obtain ⟨⟨h1, h2⟩, h3⟩ := h
  refine ⟨⟨fun b hb => ?_, ho⟩, fun b e hb he hi hc ht => ?_, one, fun b e hb he ht => ?_,
    by simpa using h2, List.not_mem_nil, fun _ _ _ h => (by cases h), orderedB_ok h3, fun b hb => ?_⟩
  · have := (h1 b hb).1.1; simpa using this
  · have := ((h1 b hb).1.2 e he).1
    simp only [hi, Bool.false_or, Bool.or_eq_true, beq_iff_eq, Bool.and_eq_true] at this
    rcases this with (h | h) | ⟨h, h'⟩
    · exact absurd h hc
    · simp at h; exact absurd ht h
    · exact ⟨h, by simpa using h'⟩
  · have := ((h1 b hb).1.2 e he).2
    simp only [Bool.or_eq_true, bne_iff_ne, Bool.and_eq_true, beq_iff_eq] at this
    rcases this with h | ⟨h, h'⟩
    · exact absurd ht h
    · exact ⟨h, h'⟩
  · have := (h1 b hb).2
    simp only [Bool.or_eq_true, beq_iff_eq] at this
    rcases this with h | h
    · exact .inl h
    · right; right; simpa using h

/-- A check for the news. -/
def newsB (I : HeapIn) (info : HNode → HCtx) : Bool :=
  !(HCtx.same (setArgs HCtx.init) (transferAt I (entryNode I) (setArgs HCtx.init))) &&
  (I.co.blocks I.f).all fun b => (List.range (I.insns b).length).all fun k =>
    (b, k) == entryNode I || !(HCtx.same HCtx.init (info (b, k)))

theorem newsB_ok {I : HeapIn} {comps : List (List Blk)} {info : HNode → HCtx}
    (hs : HeapShape I [] comps) (h : newsB I info = true) : HeapSetting I [] comps info := by
  unfold newsB at h
  simp only [Bool.and_eq_true, List.all_eq_true, List.mem_range, Bool.or_eq_true, beq_iff_eq,
    Bool.not_eq_true'] at h
  refine ⟨hs, h.1, fun b k hb _ hk hne => ?_⟩
  rcases h.2 b hb k hk with e | e
  · exact absurd e hne
  · exact e

/-- Register values after an instruction. -/
def PState.put (s : PState) (r : Reg) (v : PVal) : PState :=
  { s with regs := fun x => if x = r then v else s.regs x }

theorem keptBut_put (s : PState) (r : Reg) (v : PVal) : KeptBut (.gpr r) s (s.put r v) := by
  intro x hx
  exact if_neg fun e => hx (by rw [e])

/-- After a call. -/
def PState.called (s : PState) (v : PVal) : PState :=
  { s with regs := fun x => if x = .rax then v else if x ∈ preserved then s.regs x else .other }

theorem called_kept (s : PState) (v : PVal) : ∀ r, r ∈ preserved → (s.called v).regs r = s.regs r := by
  intro r hr
  have : r ≠ .rax := by rintro rfl; revert hr; decide
  simp [PState.called, this, hr]

theorem heapSample_shape : HeapShape heapSample [] [[1], [2], [3]] := by
  refine shapeB_ok (by decide +kernel) (fun _ _ => Iff.rfl) fun b e e' he he' ht ht' => ?_
  simp only [heapSample, heapCode] at he he'
  split at he
  · simp_all
    rcases he with rfl | rfl <;> rcases he' with rfl | rfl <;> simp_all
  · split at he
    · simp_all
    · split at he
      · simp_all
        rcases he with rfl | rfl <;> simp_all
      · simp at he

def heapSampleInfo : HNode → HCtx := heapRunAll heapSample 20 heapComps (fun _ => HCtx.init)

def heapState1 : PState := PState.start.put .rbx .arg
def heapState2 : PState := heapState1.called .heap
def heapState3 : PState := heapState2.put .r12 .heap

theorem heapSample_run : OBefore heapSample true (2, 0) heapState3 := by
  have r1 : ORun heapSample true (0, 0) heapState1 :=
    .start ⟨_, rfl, .move (d := .gpr .rbx) (r := .gpr .rdi) rfl rfl rfl rfl rfl (keptBut_put _ _ _)
      (by intro q hq; injection hq with hq; subst hq; decide) (fun _ _ => rfl)⟩
  have r2 : ORun heapSample true (0, 1) heapState2 :=
    r1.step (.next (by decide) (by decide)) ⟨_, rfl,
      .call (e := ⟨0, 0, 9, .call, false, true⟩) rfl (by decide) rfl (fun _ => rfl)
        (called_kept _ _) (fun _ _ => rfl)⟩
  have r3 : ORun heapSample true (1, 0) heapState3 :=
    r2.step (.edge (b := 0) (e := ⟨1, 0, 1, .callFt, false, false⟩) (by decide) (by decide) rfl
      (by decide) (by decide)) ⟨_, rfl,
      .move (d := .gpr .r12) (r := .gpr .rax) rfl rfl rfl rfl rfl (keptBut_put _ _ _)
        (by intro q hq; injection hq with hq; subst hq; rfl) (fun _ _ => rfl)⟩
  exact .inr ⟨_, r3, .edge (b := 1) (e := ⟨2, 1, 2, .fallthrough, false, false⟩) (by decide)
    (by decide) rfl (by decide) (by decide)⟩

/-- The sample meets the hypotheses: the store in the loop is reported, and its base comes from
the allocator. -/
example : HeapSetting heapSample [] [[1], [2], [3]] heapSampleInfo ∧
    Analyses heapSample ([heapSample.co.entry heapSample.f] :: [[1], [2], [3]])
      (fun _ => HCtx.init) heapSampleInfo ∧
    OBefore heapSample true (2, 0) heapState3 ∧
    writeType heapSample heapSampleInfo 2 4128 = some .heap ∧ heapState3.regs .r12 = .heap :=
  ⟨newsB_ok heapSample_shape (by decide +kernel), heapRunAll_analyses heapSample_done,
    heapSample_run, by decide +kernel, rfl⟩

/-! ## What is left out -/

/-- A wrong report: an address marked HEAP whose base is `v` in a run. -/
def WrongBase (tame : Bool) (I : HeapIn) (comps : List (List Blk)) (info : HNode → HCtx) (v : PVal) :
    Prop :=
  Analyses I ([I.co.entry I.f] :: comps) (fun _ => HCtx.init) info ∧
  ∃ b k i e r s s', I.insn (b, k) = some i ∧ ((I.insns b).map (·.addr)).Nodup ∧ i.op = .mov ∧
    i.op0 = some (.deref e) ∧ e.pointer = some (.gpr r) ∧ OBefore I tame (b, k) s ∧
    OStep I tame b i s s' ∧ writeType I info b i.addr = some .heap ∧ s.regs r = v

/-- `0: test ; mov (mem), %rax ; je 2   1: call malloc   2: mov %rcx, (%rax) ; ret`. -/
def idleCode : CodeObj where
  funcs := [0]
  addr _ := 4096
  entry _ := 0
  blocks _ := [0, 1, 2]
  exitBlocks _ := [2]
  targets b :=
    if b = 0 then [⟨0, 0, 2, .condTaken, false, false⟩, ⟨1, 0, 1, .condNotTaken, false, false⟩]
    else if b = 1 then [⟨2, 1, 9, .call, false, true⟩, ⟨3, 1, 2, .callFt, false, false⟩]
    else []
  start b := 4096 + 16 * b
  last b := if b = 0 then 4096 + 12 else 4096 + 16 * b
  funcsAt _ := [0]
  linkage a := if a = 4096 + 16 * 9 then some "malloc".toList else none

def idleIn : HeapIn where
  co := idleCode
  f := 0
  insns b :=
    if b = 0 then
      [{ addr := 4096, op := .other, op0 := some (.reg (.gpr .rdi)), written := [.other 1] },
       { addr := 4100, op := .mov, op0 := some (.reg (.gpr .rax)),
         op1 := some (.deref (.reg (.other 0))), readsMemory := true, written := [.gpr .rax] },
       { addr := 4108, op := .other, op0 := some .imm, written := [.other 0] }]
    else if b = 1 then [{ addr := 4112, op := .call, op0 := some .imm, written := [.gpr .rsp, .other 0] }]
    else if b = 2 then
      [{ addr := 4128, op := .mov, op0 := some (.deref (.reg (.gpr .rax))),
         op1 := some (.reg (.gpr .rcx)), writesMemory := true },
       { addr := 4132, op := .other, written := [.gpr .rsp, .other 0] }]
    else []
  sources b :=
    if b = 1 then [⟨1, 0, 1, .condNotTaken, false, false⟩]
    else if b = 2 then [⟨0, 0, 2, .condTaken, false, false⟩, ⟨3, 1, 2, .callFt, false, false⟩]
    else []
  heights _ := none

theorem idle_shape : HeapShape idleIn [] [[1], [2]] := by
  refine shapeB_ok (by decide +kernel) (fun _ _ => Iff.rfl) fun b e e' he he' ht ht' => ?_
  simp only [idleIn, idleCode] at he he'
  split at he
  · simp_all
    rcases he with rfl | rfl <;> simp_all
  · split at he
    · simp_all
      rcases he with rfl | rfl <;> rcases he' with rfl | rfl <;> simp_all
    · simp at he

/-- C61 is false of functions whose first instruction changes no fact, as `test`, `cmp` or
`endbr64`: what holds at the entry is never passed on, and on a path without the allocator an
address is still reported as HEAP. -/
theorem C61_refuted_idle :
    ∃ I comps info, HeapShape I [] comps ∧ WrongBase true I comps info .other := by
  refine ⟨idleIn, [[1], [2]], heapRunAll idleIn 20 [[0], [1], [2]] (fun _ => HCtx.init), idle_shape,
    heapRunAll_analyses (by decide +kernel),
    2, 0, _, _, .rax, PState.start.put .rax .other, PState.start.put .rax .other, rfl, by decide,
    rfl, rfl, rfl, ?_, .store rfl rfl rfl rfl rfl rfl (fun _ _ => rfl), by decide +kernel, rfl⟩
  have r1 : ORun idleIn true (0, 0) PState.start :=
    .start ⟨_, rfl, .other rfl (fun _ _ => rfl) (fun _ _ => rfl)⟩
  have r2 : ORun idleIn true (0, 1) (PState.start.put .rax .other) :=
    r1.step (.next (by decide) (by decide)) ⟨_, rfl,
      .load (d := .gpr .rax) rfl rfl rfl rfl rfl (keptBut_put _ _ _) (fun _ _ => rfl)⟩
  have r3 : ORun idleIn true (0, 2) (PState.start.put .rax .other) :=
    r2.step (.next (by decide) (by decide)) ⟨_, rfl, .other rfl (fun _ _ => rfl) (fun _ _ => rfl)⟩
  exact .inr ⟨_, r3, .edge (b := 0) (e := ⟨0, 0, 2, .condTaken, false, false⟩) (by decide)
    (by decide) rfl (by decide) (by decide)⟩

/-- `0: mov %rdi, %rbx ; lea 8(%rsp), %r12 ; je 3   1: call malloc   2: mov %rax, %r12
3: mov %rbx, (%r12) ; ret`. -/
def frameCode : CodeObj where
  funcs := [0]
  addr _ := 4096
  entry _ := 0
  blocks _ := [0, 1, 2, 3]
  exitBlocks _ := [3]
  targets b :=
    if b = 0 then [⟨0, 0, 3, .condTaken, false, false⟩, ⟨1, 0, 1, .condNotTaken, false, false⟩]
    else if b = 1 then [⟨2, 1, 9, .call, false, true⟩, ⟨3, 1, 2, .callFt, false, false⟩]
    else if b = 2 then [⟨4, 2, 3, .fallthrough, false, false⟩]
    else []
  start b := 4096 + 16 * b
  last b := if b = 0 then 4096 + 12 else 4096 + 16 * b
  funcsAt _ := [0]
  linkage a := if a = 4096 + 16 * 9 then some "malloc".toList else none

def frameIn : HeapIn where
  co := frameCode
  f := 0
  insns b :=
    if b = 0 then
      [{ addr := 4096, op := .mov, op0 := some (.reg (.gpr .rbx)), op1 := some (.reg (.gpr .rdi)),
         written := [.gpr .rbx] },
       { addr := 4100, op := .lea, op0 := some (.reg (.gpr .r12)),
         op1 := some (.bin true (.reg (.gpr .rsp)) .imm), written := [.gpr .r12] },
       { addr := 4108, op := .other, op0 := some .imm, written := [.other 0] }]
    else if b = 1 then [{ addr := 4112, op := .call, op0 := some .imm, written := [.gpr .rsp, .other 0] }]
    else if b = 2 then
      [{ addr := 4128, op := .mov, op0 := some (.reg (.gpr .r12)), op1 := some (.reg (.gpr .rax)),
         written := [.gpr .r12] }]
    else if b = 3 then
      [{ addr := 4144, op := .mov, op0 := some (.deref (.reg (.gpr .r12))),
         op1 := some (.reg (.gpr .rbx)), writesMemory := true },
       { addr := 4148, op := .other, written := [.gpr .rsp, .other 0] }]
    else []
  sources b :=
    if b = 1 then [⟨1, 0, 1, .condNotTaken, false, false⟩]
    else if b = 2 then [⟨3, 1, 2, .callFt, false, false⟩]
    else if b = 3 then [⟨0, 0, 3, .condTaken, false, false⟩, ⟨4, 2, 3, .fallthrough, false, false⟩]
    else []
  heights _ := none

theorem frame_shape : HeapShape frameIn [] [[1], [2], [3]] := by
  refine shapeB_ok (by decide +kernel) (fun _ _ => Iff.rfl) fun b e e' he he' ht ht' => ?_
  simp only [frameIn, frameCode] at he he'
  split at he
  · simp_all
    rcases he with rfl | rfl <;> simp_all
  · split at he
    · simp_all
      rcases he with rfl | rfl <;> rcases he' with rfl | rfl <;> simp_all
    · split at he
      · simp_all
      · simp at he

/-- C61 is false even where every instruction has told the analysis something: the stack pointer
is BOTTOM in all facts, so merging an address in the frame with one from the allocator gives
HEAP, and a write into the frame is reported as a write to the heap. -/
theorem C61_refuted_frame :
    ∃ I comps info, HeapSetting I [] comps info ∧ WrongBase true I comps info (.entry .rsp) := by
  refine ⟨frameIn, [[1], [2], [3]], heapRunAll frameIn 20 [[0], [1], [2], [3]] (fun _ => HCtx.init),
    newsB_ok frame_shape (by decide +kernel), heapRunAll_analyses (by decide +kernel),
    3, 0, _, _, .r12, (PState.start.put .rbx .arg).put .r12 (.entry .rsp),
    (PState.start.put .rbx .arg).put .r12 (.entry .rsp), rfl, by decide,
    rfl, rfl, rfl, ?_, .store rfl rfl rfl rfl rfl rfl (fun _ _ => rfl), by decide +kernel, rfl⟩
  have r1 : ORun frameIn true (0, 0) (PState.start.put .rbx .arg) :=
    .start ⟨_, rfl, .move (d := .gpr .rbx) (r := .gpr .rdi) rfl rfl rfl rfl rfl (keptBut_put _ _ _)
      (by intro q hq; injection hq with hq; subst hq; decide) (fun _ _ => rfl)⟩
  have r2 : ORun frameIn true (0, 1) ((PState.start.put .rbx .arg).put .r12 (.entry .rsp)) :=
    r1.step (.next (by decide) (by decide)) ⟨_, rfl,
      .lea (d := .r12) (p := .rsp) rfl rfl rfl rfl (keptBut_put _ _ _) (by decide) (fun _ _ => rfl)⟩
  have r3 : ORun frameIn true (0, 2) ((PState.start.put .rbx .arg).put .r12 (.entry .rsp)) :=
    r2.step (.next (by decide) (by decide)) ⟨_, rfl, .other rfl (fun _ _ => rfl) (fun _ _ => rfl)⟩
  exact .inr ⟨_, r3, .edge (b := 0) (e := ⟨0, 0, 3, .condTaken, false, false⟩) (by decide)
    (by decide) rfl (by decide) (by decide)⟩

/-- `0: mov %rdi, %rbx ; call malloc   1: mov %rax, 8(%rsp) ; movq %xmm0, 8(%rsp) ;
mov 8(%rsp), %rdx ; mov %rbx, (%rdx) ; ret`. -/
def staleCode : CodeObj where
  funcs := [0]
  addr _ := 4096
  entry _ := 0
  blocks _ := [0, 1]
  exitBlocks _ := [1]
  targets b :=
    if b = 0 then [⟨0, 0, 9, .call, false, true⟩, ⟨1, 0, 1, .callFt, false, false⟩]
    else []
  start b := 4096 + 16 * b
  last b := if b = 0 then 4096 + 4 else 4096 + 32
  funcsAt _ := [0]
  linkage a := if a = 4096 + 16 * 9 then some "malloc".toList else none

def staleIn : HeapIn where
  co := staleCode
  f := 0
  insns b :=
    if b = 0 then
      [{ addr := 4096, op := .mov, op0 := some (.reg (.gpr .rbx)), op1 := some (.reg (.gpr .rdi)),
         written := [.gpr .rbx] },
       { addr := 4100, op := .call, op0 := some .imm, written := [.gpr .rsp, .other 0] }]
    else if b = 1 then
      [{ addr := 4112, op := .mov, op0 := some (.deref (.bin true (.reg (.gpr .rsp)) .imm)),
         op1 := some (.reg (.gpr .rax)), writesMemory := true },
       { addr := 4117, op := .other, op0 := some (.deref (.bin true (.reg (.gpr .rsp)) .imm)),
         op1 := some (.reg (.other 2)), writesMemory := true },
       { addr := 4123, op := .mov, op0 := some (.reg (.gpr .rdx)),
         op1 := some (.deref (.bin true (.reg (.gpr .rsp)) .imm)), readsMemory := true,
         written := [.gpr .rdx] },
       { addr := 4128, op := .mov, op0 := some (.deref (.reg (.gpr .rdx))),
         op1 := some (.reg (.gpr .rbx)), writesMemory := true },
       { addr := 4132, op := .other, written := [.gpr .rsp, .other 0] }]
    else []
  sources b :=
    if b = 1 then [⟨1, 0, 1, .callFt, false, false⟩]
    else []
  heights a := if a = 4112 then some (0, -16) else if a = 4123 then some (-16, 0) else none

theorem stale_shape : HeapShape staleIn [] [[1]] := by
  refine shapeB_ok (by decide +kernel) (fun _ _ => Iff.rfl) fun b e e' he he' ht ht' => ?_
  simp only [staleIn, staleCode] at he he'
  split at he
  · simp_all
    rcases he with rfl | rfl <;> rcases he' with rfl | rfl <;> simp_all
  · simp at he

/-- C61 is false where a stack word is written by anything but a `mov` at a known height: the
fact about the word stays. -/
theorem C61_refuted_stale :
    ∃ I comps info, HeapSetting I [] comps info ∧ WrongBase false I comps info .other := by
  let s1 : PState := PState.start.put .rbx .arg
  let s2 : PState := s1.called .heap
  let s3 : PState := { s2 with slots := fun h => if h = -16 then .heap else s2.slots h }
  let s4 : PState := { s3 with slots := fun h => if h = -16 then .other else s3.slots h }
  let s5 : PState := s4.put .rdx .other
  refine ⟨staleIn, [[1]], heapRunAll staleIn 20 [[0], [1]] (fun _ => HCtx.init),
    newsB_ok stale_shape (by decide +kernel), heapRunAll_analyses (by decide +kernel),
    1, 3, _, _, .rdx, s5, s5, rfl, by decide,
    rfl, rfl, rfl, ?_, .store rfl rfl rfl rfl rfl rfl (fun _ _ => rfl), by decide +kernel, rfl⟩
  have r1 : ORun staleIn false (0, 0) s1 :=
    .start ⟨_, rfl, .move (d := .gpr .rbx) (r := .gpr .rdi) rfl rfl rfl rfl rfl (keptBut_put _ _ _)
      (by intro q hq; injection hq with hq; subst hq; decide) (fun _ _ => rfl)⟩
  have r2 : ORun staleIn false (0, 1) s2 :=
    r1.step (.next (by decide) (by decide)) ⟨_, rfl,
      .call (e := ⟨0, 0, 9, .call, false, true⟩) rfl (by decide) rfl (fun _ => rfl)
        (called_kept _ _) (fun _ _ => rfl)⟩
  have r3 : ORun staleIn false (1, 0) s3 :=
    r2.step (.edge (b := 0) (e := ⟨1, 0, 1, .callFt, false, false⟩) (by decide) (by decide) rfl
      (by decide) (by decide)) ⟨_, rfl,
      .storeWord (p := .gpr .rsp) (h := -16) (x := 0) rfl rfl (.inr ⟨_, rfl⟩) (.inr ⟨_, rfl⟩) rfl rfl rfl
        rfl rfl (fun y hy => if_neg hy)⟩
  have r4 : ORun staleIn false (1, 1) s4 :=
    r3.step (.next (by decide) (by decide)) ⟨_, rfl, .other rfl (fun _ _ => rfl)
      (fun h hh => by rcases hh with ⟨hh, _⟩ | hh <;> cases hh)⟩
  have r5 : ORun staleIn false (1, 2) s5 :=
    r4.step (.next (by decide) (by decide)) ⟨_, rfl,
      .loadWord (d := .gpr .rdx) (h := -16) (x := 0) rfl rfl rfl rfl rfl (keptBut_put _ _ _)
        (by intro q hq; injection hq with hq; subst hq; rfl) (fun _ _ => rfl)⟩
  exact .inr ⟨_, r5, .next (by decide) (by decide)⟩

end Verif
