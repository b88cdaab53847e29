import Verif.Props.Heap

/-!
A function for the examples about the heap analysis:

    0: mov %rdi, %rbx ; call malloc
    1: mov %rax, %r12
    2: mov %rbx, (%r12) ; dec %rbx ; jne 2
    3: ret

and a way to run the analysis on it.
-/

namespace Verif

def heapCode : CodeObj where
  funcs := [0]
  addr _ := 4096
  entry _ := 0
  blocks _ := [0, 1, 2, 3]
  exitBlocks _ := [3]
  targets b :=
    if b = 0 then [⟨0, 0, 9, .call, false, true⟩, ⟨1, 0, 1, .callFt, false, false⟩]
    else if b = 1 then [⟨2, 1, 2, .fallthrough, false, false⟩]
    else if b = 2 then [⟨3, 2, 2, .condTaken, false, false⟩, ⟨4, 2, 3, .condNotTaken, false, false⟩]
    else []
  start b := 4096 + 16 * b
  last b := if b = 2 then 4096 + 16 * b + 8 else if b = 0 then 4096 + 4 else 4096 + 16 * b
  funcsAt _ := [0]
  linkage a := if a = 4096 + 16 * 9 then some "malloc".toList else none

def heapSample : HeapIn where
  co := heapCode
  f := 0
  insns b :=
    if b = 0 then
      [{ addr := 4096, op := .mov, op0 := some (.reg (.gpr .rbx)), op1 := some (.reg (.gpr .rdi)),
         written := [.gpr .rbx] },
       { addr := 4100, op := .call, op0 := some .imm, written := [.gpr .rsp, .other 0] }]
    else if b = 1 then
      [{ addr := 4112, op := .mov, op0 := some (.reg (.gpr .r12)), op1 := some (.reg (.gpr .rax)),
         written := [.gpr .r12] }]
    else if b = 2 then
      [{ addr := 4128, op := .mov, op0 := some (.deref (.reg (.gpr .r12))),
         op1 := some (.reg (.gpr .rbx)), writesMemory := true },
       { addr := 4132, op := .other, op0 := some (.reg (.gpr .rbx)),
         written := [.gpr .rbx, .other 1] },
       { addr := 4136, op := .other, op0 := some .imm, written := [.other 0] }]
    else if b = 3 then [{ addr := 4144, op := .other, written := [.gpr .rsp, .other 0] }]
    else []
  sources b :=
    if b = 1 then [⟨1, 0, 1, .callFt, false, false⟩]
    else if b = 2 then [⟨2, 1, 2, .fallthrough, false, false⟩, ⟨3, 2, 2, .condTaken, false, false⟩]
    else if b = 3 then [⟨4, 2, 3, .condNotTaken, false, false⟩]
    else []
  heights _ := none

def heapComps : List (List Blk) := [[0], [1], [2], [3]]

/-- At most so many iterations. -/
def heapRun (I : HeapIn) (comp : List Blk) : Nat → HState → HState
  | 0, st => st
  | k + 1, st => match heapStep I comp st with
    | none => st
    | some st' => heapRun I comp k st'

theorem heapRun_steps (I : HeapIn) (comp : List Blk) (k : Nat) (st : HState) :
    HeapSteps I comp st (heapRun I comp k st) := by
  induction k generalizing st with
  | zero => exact .refl
  | succ k ih =>
    unfold heapRun
    cases h : heapStep I comp st with
    | none => exact .refl
    | some st' => exact (ih st').front h

theorem heapStep_none {I : HeapIn} {comp : List Blk} {st : HState} (h : st.work = []) :
    heapStep I comp st = none := by
  unfold heapStep; rw [h]

def heapRunAll (I : HeapIn) (k : Nat) : List (List Blk) → (HNode → HCtx) → HNode → HCtx
  | [], info => info
  | comp :: comps, info => heapRunAll I k comps (heapRun I comp k (heapStart I comp info)).info

/-- All work lists are empty at the end. -/
def heapRunDone (I : HeapIn) (k : Nat) : List (List Blk) → (HNode → HCtx) → Bool
  | [], _ => true
  | comp :: comps, info =>
    (heapRun I comp k (heapStart I comp info)).work.isEmpty &&
    heapRunDone I k comps (heapRun I comp k (heapStart I comp info)).info

theorem heapRunAll_analyses {I : HeapIn} {k : Nat} :
    ∀ {comps : List (List Blk)} {info : HNode → HCtx}, heapRunDone I k comps info = true →
      Analyses I comps info (heapRunAll I k comps info)
  | [], info, _ => .nil
  | comp :: comps, info, h => by
    unfold heapRunDone at h
    rw [Bool.and_eq_true, List.isEmpty_iff] at h
    exact .cons ⟨_, heapRun_steps I comp k _, heapStep_none h.1, rfl⟩ (heapRunAll_analyses h.2)

theorem heapSample_done : heapRunDone heapSample 20 heapComps (fun _ => HCtx.init) = true := by
  decide +kernel

theorem heapSample_wf : heapSample.Wf := by
  refine ⟨fun b hb => ?_, fun l n => Iff.rfl⟩
  have : b = 0 ∨ b = 1 ∨ b = 2 ∨ b = 3 := by
    simpa [heapSample, heapCode] using hb
  rcases this with rfl | rfl | rfl | rfl <;> decide

/-- The store in the loop is found to be to the heap. -/
example : writeType heapSample
    (heapRunAll heapSample 20 heapComps (fun _ => HCtx.init)) 2 4128 = some .heap := by
  decide +kernel

/-- C47 applies to it, with work in progress. -/
example : ∃ st, HeapSteps heapSample [2] (heapStart heapSample [2]
      (heapRunAll heapSample 20 [[0], [1]] (fun _ => HCtx.init))) st ∧
    st.work = [((2, 0), [(1, 0), (2, 2)])] :=
  ⟨heapRun heapSample [2] 3 _, heapRun_steps _ _ _ _, by decide +kernel⟩

example : Analyses heapSample [[0], [1]] (fun _ => HCtx.init)
    (heapRunAll heapSample 20 [[0], [1]] (fun _ => HCtx.init)) :=
  heapRunAll_analyses (by decide +kernel)

end Verif
