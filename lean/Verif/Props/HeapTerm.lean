import Verif.HeapTerm
import Verif.Props.HeapSample

/-!
C60: the heap analysis comes to an end.
-/

namespace Verif

/-- C60, part.  For every function, every order of its components and every iteration order of
the sets, the analysis reaches its end.  Left out: components with an entry block of one
instruction and an edge from it to itself (`C60_refuted`). -/
theorem C60_terminates_partial (I : HeapIn) (comps : List (List Blk))
    (h : ∀ comp, comp ∈ comps → ¬ ((I.insns (I.co.entry I.f)).length ≤ 1 ∧
      I.co.entry I.f ∈ comp ∧
      ∃ e, e ∈ I.co.targets (I.co.entry I.f) ∧ e.trg = I.co.entry I.f)) :
    ∃ info, Analyses I comps (fun _ => HCtx.init) info :=
  analyses_finish comps _ _ _ h (fun _ => HCtx.init_ok) (fun _ _ => .inl init_fresh)
    (fun _ => init_in)

theorem heapSteps_end {I : HeapIn} {comp : List Blk} {x y : HState} (h : HeapSteps I comp x y)
    (hn : heapStep I comp x = none) : x = y := by
  induction h with
  | refl => rfl
  | step _ hs ih => rw [← ih, hn] at hs; cases hs

theorem heapSteps_uncons {I : HeapIn} {comp : List Blk} {x y z : HState} (h : HeapSteps I comp x y)
    (hz : heapStep I comp x = some z) : x = y ∨ HeapSteps I comp z y := by
  induction h with
  | refl => exact .inl rfl
  | @step u v _ huv ih =>
    rcases ih with h | h
    · subst h; rw [hz] at huv; cases huv; exact .inr .refl
    · exact .inr (.step h huv)

theorem heapSteps_stuck {I : HeapIn} {comp : List Blk} {a b c : HState}
    (h1 : HeapSteps I comp a b) (h2 : HeapSteps I comp a c) (hc : heapStep I comp c = none) :
    HeapSteps I comp b c := by
  induction h1 with
  | refl => exact h2
  | step _ hs ih =>
    rcases heapSteps_uncons ih hs with h | h
    · subst h; rw [hc] at hs; cases hs
    · exact h

/-- C60.  The outcome is unique: it depends on the order of components and sets only. -/
theorem C60_unique {I : HeapIn} {comps : List (List Blk)} {i j k : HNode → HCtx}
    (h1 : Analyses I comps i j) (h2 : Analyses I comps i k) : j = k := by
  induction h1 with
  | nil => cases h2; rfl
  | cons ha _ ih =>
    cases h2 with
    | cons hb hr =>
      obtain ⟨s, a1, a2, rfl⟩ := ha
      obtain ⟨t, b1, b2, rfl⟩ := hb
      have := heapSteps_end (heapSteps_stuck a1 b1 b2) a2
      subst this
      exact ih hr

/-- C60, part.  No endless run of the loop, from the contexts left by the components before. -/
theorem C60_no_endless_run_partial (I : HeapIn) {comps : List (List Blk)} {comp : List Blk}
    {info : HNode → HCtx} (hi : Analyses I comps (fun _ => HCtx.init) info)
    (h : ∀ c, c ∈ comps ++ [comp] → ¬ EntrySpin I c) :
    ¬ ∃ run : Nat → HState, run 0 = heapStart I comp info ∧
      ∀ k, heapStep I comp (run k) = some (run (k + 1)) := by
  rintro ⟨run, h0, hrun⟩
  obtain ⟨info', hall⟩ := C60_terminates_partial I (comps ++ [comp]) h
  have hsplit : ∀ {cs : List (List Blk)} {i m : HNode → HCtx}, Analyses I cs i m →
      ∀ {j}, Analyses I (cs ++ [comp]) i j → ∃ st, HeapSteps I comp (heapStart I comp m) st ∧
        heapStep I comp st = none := by
    intro cs i m hm
    induction hm with
    | nil => intro j hj; cases hj with | cons ha _ => obtain ⟨st, a, b, _⟩ := ha; exact ⟨st, a, b⟩
    | cons ha _ ih =>
      intro j hj
      cases hj with
      | cons hb hr =>
        have := C60_unique (.cons ha .nil) (.cons hb .nil)
        subst this
        exact ih hr
  obtain ⟨st, hst, hn⟩ := hsplit hi hall
  have : ∀ {x : HState}, HeapSteps I comp (run 0) x → ∃ k, x = run k := by
    intro x hx
    induction hx with
    | refl => exact ⟨0, rfl⟩
    | step _ hs ih =>
      obtain ⟨k, rfl⟩ := ih
      rw [hrun k] at hs; cases hs; exact ⟨k + 1, rfl⟩
  rw [← h0] at hst
  obtain ⟨k, rfl⟩ := this hst
  rw [hrun k] at hn; cases hn

/-! ## The exception -/

/-- `f: loop f ; ret`. -/
def spinCode : CodeObj where
  funcs := [0]
  addr _ := 4096
  entry _ := 0
  blocks _ := [0, 1]
  exitBlocks _ := [1]
  targets b :=
    if b = 0 then [⟨0, 0, 0, .condTaken, false, false⟩, ⟨1, 0, 1, .condNotTaken, false, false⟩]
    else []
  start b := 4096 + 2 * b
  last b := 4096 + 2 * b
  funcsAt _ := [0]
  linkage _ := none

def spinIn : HeapIn where
  co := spinCode
  f := 0
  insns b :=
    if b = 0 then [{ addr := 4096, op := .other, op0 := some .imm, written := [.gpr .rcx, .other 0] }]
    else if b = 1 then [{ addr := 4098, op := .other, written := [.gpr .rsp, .other 0] }]
    else []
  sources b :=
    if b = 0 then [⟨0, 0, 0, .condTaken, false, false⟩]
    else if b = 1 then [⟨1, 0, 1, .condNotTaken, false, false⟩]
    else []
  heights _ := none

theorem spinIn_wf : spinIn.Wf := by
  refine ⟨fun b hb => ?_, fun l n => Iff.rfl⟩
  have : b = 0 ∨ b = 1 := by simpa [spinIn, spinCode] using hb
  rcases this with rfl | rfl <;> decide

def spinFact : HCtx := setArgs HCtx.init

/-- The state the loop comes back to. -/
def Spins (st : HState) : Prop := st.work = [((0, 0), [])] ∧ st.info (0, 0) = spinFact

theorem spins_step {st : HState} (h : Spins st) :
    ∃ st', heapStep spinIn [0] st = some st' ∧ Spins st' := by
  obtain ⟨w, info⟩ := st
  obtain ⟨h1, h2⟩ := h
  simp only at h1 h2
  subst h1
  have hc : newFact spinIn w (0, 0) [] = transferAt spinIn (0, 0) spinFact := by
    unfold newFact meetPreds; rw [h2]
  refine ⟨_, rfl, ?_⟩
  simp only [hc, h2]
  rw [if_neg (by decide +kernel : ¬ HCtx.same spinFact (transferAt spinIn (0, 0) spinFact) = true)]
  constructor
  · rfl
  · show setArgs (transferAt spinIn (0, 0) spinFact) = spinFact
    decide +kernel

/-- C60 is false in general: for `f: loop f` the work list never becomes empty, since entering
the entry block again resets the register which the instruction changes. -/
theorem C60_refuted :
    ¬ ∃ info, AnalysesBlocks spinIn [0] (fun _ => HCtx.init) info := by
  rintro ⟨info, st, hs, hn, hinfo⟩
  clear hinfo
  have h0 : Spins (heapStart spinIn [0] (fun _ => HCtx.init)) := ⟨rfl, rfl⟩
  have : Spins st := by
    clear hn
    induction hs with
    | refl => exact h0
    | step _ h ih =>
      obtain ⟨st', h1, h2⟩ := spins_step ih
      rw [h1] at h; cases h; exact h2
  obtain ⟨st', h1, _⟩ := spins_step this
  rw [h1] at hn; cases hn

/-- The sample, which has a loop, is within the condition. -/
example : ∀ comp, comp ∈ heapComps → ¬ EntrySpin heapSample comp := by
  intro comp _ h
  exact absurd h.1 (by decide)

end Verif
