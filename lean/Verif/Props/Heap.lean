import Verif.HeapLemmas

/-!
C47: the heap analysis never reaches its impossible cases.
-/

namespace Verif

/-- All contexts have the expected shape. -/
def InfoOk (info : HNode → HCtx) : Prop := ∀ n, (info n).Ok

theorem meetPreds_ok {info : HNode → HCtx} (hi : InfoOk info) (n : HNode) :
    ∀ (ps : List HNode) {c : HCtx}, c.Ok →
      (meetPreds info n c ps).Ok ∧ meetPredsOk info n c ps = true
  | [], c, hc => ⟨hc, rfl⟩
  | p :: ps, c, hc => by
    have h1 : (if p = n then c else c.meet (info p)).Ok := by
      split
      · exact hc
      · exact (hc.meet (hi p)).1
    obtain ⟨h2, h3⟩ := meetPreds_ok hi n ps h1
    refine ⟨h2, ?_⟩
    simp only [meetPredsOk, h3, Bool.and_true]
    by_cases e : p = n
    · simp [e]
    · simp [(hc.meet (hi p)).2]

theorem infoOk_set {st : HState} (hi : InfoOk st.info) (n : HNode) {c : HCtx} (hc : c.Ok) :
    InfoOk (st.setCtx n c).info := by
  intro m
  simp only [HState.setCtx]
  split
  · exact hc
  · exact hi m

theorem updateWork_ok (I : HeapIn) {st : HState} (hi : InfoOk st.info) (b : Blk) :
    InfoOk (updateWork I st b).info := by
  unfold updateWork
  split
  · exact infoOk_set hi _ (setArgs_ok (hi _))
  · exact hi

theorem foldWork_ok (I : HeapIn) (comp : List Blk) (l : List Edge) {st : HState}
    (hi : InfoOk st.info) :
    InfoOk (l.foldl (fun st e => if e.trg ∈ comp then updateWork I st e.trg else st) st).info := by
  induction l generalizing st with
  | nil => exact hi
  | cons e l ih =>
    rw [List.foldl_cons]
    refine ih ?_
    split
    · exact updateWork_ok I hi _
    · exact hi

theorem pushNext_ok (I : HeapIn) (comp : List Blk) (n : HNode) {st : HState}
    (hi : InfoOk st.info) : InfoOk (pushNext I comp n st).info := by
  unfold pushNext
  split
  · exact hi
  · exact foldWork_ok I comp _ hi

theorem heapStep_ok (I : HeapIn) (comp : List Blk) {st st' : HState} (hi : InfoOk st.info)
    (h : heapStep I comp st = some st') : InfoOk st'.info := by
  unfold heapStep at h
  split at h
  · cases h
  · rename_i n preds rest _
    have hc := (meetPreds_ok hi n preds (hi n)).1
    have hc' : (newFact I st.info n preds).Ok := by
      unfold newFact transferAt
      split
      · exact (transfer_ok I n.1 _ hc).1
      · exact hc
    simp only [Option.some.injEq] at h
    have h1 := infoOk_set hi n hc'
    rw [← h]
    split
    · exact h1
    · exact pushNext_ok I comp n h1

theorem HeapSteps.front {I : HeapIn} {comp : List Blk} {a b c : HState}
    (h : heapStep I comp a = some b) (hs : HeapSteps I comp b c) : HeapSteps I comp a c := by
  induction hs with
  | refl => exact .step .refl h
  | step _ h2 ih => exact .step ih h2

theorem heapSteps_ok (I : HeapIn) (comp : List Blk) {st st' : HState} (hi : InfoOk st.info)
    (h : HeapSteps I comp st st') : InfoOk st'.info := by
  induction h with
  | refl => exact hi
  | step _ hs ih => exact heapStep_ok I comp ih hs

theorem heapStart_ok (I : HeapIn) (comp : List Blk) {info : HNode → HCtx} (hi : InfoOk info) :
    InfoOk (heapStart I comp info).info := by
  unfold heapStart
  split
  · exact hi
  · exact updateWork_ok I (st := ⟨info, []⟩) hi _

theorem analyses_ok (I : HeapIn) {comps : List (List Blk)} {i j : HNode → HCtx} (hi : InfoOk i)
    (h : Analyses I comps i j) : InfoOk j := by
  induction h with
  | nil => exact hi
  | cons h _ ih =>
    obtain ⟨st, hs, _, rfl⟩ := h
    exact ih (heapSteps_ok I _ (heapStart_ok I _ hi) hs)

/-- C47.  After any components have been analysed, at every iteration for the next one, no
`DCHECK` and no assertion of the merges and assignments fails. -/
theorem C47_never (I : HeapIn) {comps : List (List Blk)} {info : HNode → HCtx}
    (h : Analyses I comps (fun _ => HCtx.init) info) (comp : List Blk) {st : HState}
    (hs : HeapSteps I comp (heapStart I comp info) st) : heapStepOk I st = true := by
  have hi := heapSteps_ok I comp (heapStart_ok I comp (analyses_ok I (fun _ => HCtx.init_ok) h)) hs
  unfold heapStepOk
  split
  · rfl
  · rename_i n preds rest _
    obtain ⟨h1, h2⟩ := meetPreds_ok hi n preds (hi n)
    rw [h2, Bool.true_and]
    split
    · exact (transfer_ok I n.1 _ h1).2
    · rfl

/-- C47.  Registers never hold stack locations or nested ones; a slot holds itself, with one
level below it at most, and that is not a stack location. -/
theorem C47_shapes (I : HeapIn) {comps : List (List Blk)} {info : HNode → HCtx}
    (h : Analyses I comps (fun _ => HCtx.init) info) (n : HNode) :
    (∀ k v, amGet (info n).regs k = some v →
      v.type ≠ .stack ∧ ∀ t x to, v ≠ .ptr t x to) ∧
    (∀ x v, amGet (info n).stack x = some v → v.type = .stack ∧ v.height = x ∧
      v.assignOk = true ∧ v.pointTo.type ≠ .stack) := by
  have hi := analyses_ok I (fun _ => HCtx.init_ok) h n
  constructor
  · intro k v e
    obtain ⟨t, ht, rfl⟩ := hi.regs k v e
    exact ⟨ht, fun _ _ _ => ALoc.noConfusion⟩
  · intro x v e
    obtain ⟨_, _, _, ⟨t, ht, h1⟩, h2, h3, h4⟩ := (hi.stack x v e).copy
    exact ⟨h2, h3, h4, by rw [h1]; exact ht⟩

/-! ## Contexts in the work list exist -/

/-- Every context in the work list, and every one it is to be merged with, belongs to an
instruction. -/
def WorkReal (I : HeapIn) (w : List (HNode × List HNode)) : Prop :=
  ∀ p, p ∈ w → (∃ i, I.insn p.1 = some i) ∧ ∀ q, q ∈ p.2 → ∃ i, I.insn q = some i

/-- The function as Dyninst presents it: the components consist of its blocks, its blocks are
not empty; `order` lists the elements of a set. -/
structure HeapIn.Wf (I : HeapIn) : Prop where
  insns : ∀ b, b ∈ I.co.blocks I.f → I.insns b ≠ []
  order : ∀ l n, n ∈ I.order l ↔ n ∈ l

theorem updateWork_real {I : HeapIn} (wf : I.Wf) {st : HState} (h : WorkReal I st.work) {b : Blk}
    (hb : b ∈ I.co.blocks I.f) : WorkReal I (updateWork I st b).work := by
  have h0 : ∃ i, I.insn (b, 0) = some i := by
    have := wf.insns b hb
    unfold HeapIn.insn
    cases e : I.insns b with
    | nil => exact absurd e this
    | cons i l => exact ⟨i, rfl⟩
  unfold updateWork
  split
  · intro p hp
    simp only [List.mem_append, List.mem_singleton] at hp
    rcases hp with hp | rfl
    · exact h p hp
    · exact ⟨h0, fun q hq => by cases hq⟩
  · intro p hp
    simp only [List.mem_append, List.mem_singleton] at hp
    rcases hp with hp | rfl
    · exact h p hp
    · refine ⟨h0, fun q hq => ?_⟩
      rw [wf.order] at hq
      simp only [predNodes, List.mem_map, List.mem_filter, Bool.and_eq_true, List.contains_iff_mem]
        at hq
      obtain ⟨e, ⟨_, _, he⟩, rfl⟩ := hq
      have := wf.insns _ he
      unfold HeapIn.insn
      have hl : 0 < (I.insns e.src).length := List.length_pos_iff.2 this
      exact ⟨_, List.getElem?_eq_getElem (by dsimp only; omega)⟩

theorem pushNext_real {I : HeapIn} (wf : I.Wf) {comp : List Blk}
    (hc : ∀ b, b ∈ comp → b ∈ I.co.blocks I.f) {n : HNode} (hn : ∃ i, I.insn n = some i)
    {st : HState} (h : WorkReal I st.work) : WorkReal I (pushNext I comp n st).work := by
  unfold pushNext
  split
  · rename_i hl
    intro p hp
    simp only [List.mem_append, List.mem_singleton] at hp
    rcases hp with hp | rfl
    · exact h p hp
    · refine ⟨⟨_, List.getElem?_eq_getElem hl⟩, fun q hq => ?_⟩
      rw [List.mem_singleton] at hq; subst hq; exact hn
  · generalize I.co.targets n.1 = l
    induction l generalizing st with
    | nil => exact h
    | cons e l ih =>
      rw [List.foldl_cons]
      refine ih ?_
      split
      · rename_i he; exact updateWork_real wf h (hc _ he)
      · exact h

theorem heapStep_real {I : HeapIn} (wf : I.Wf) {comp : List Blk}
    (hc : ∀ b, b ∈ comp → b ∈ I.co.blocks I.f) {st st' : HState} (h : WorkReal I st.work)
    (hs : heapStep I comp st = some st') : WorkReal I st'.work := by
  unfold heapStep at hs
  split at hs
  · cases hs
  · rename_i n preds rest hw
    rw [hw] at h
    have h1 : WorkReal I rest := fun p hp => h p (List.mem_cons_of_mem _ hp)
    simp only [Option.some.injEq] at hs
    rw [← hs]
    split
    · exact h1
    · exact pushNext_real wf hc (h _ List.mem_cons_self).1 h1

/-- C47.  No context is missing when it is needed (`DCHECK(ctx != nullptr)`, `assert(pred)`). -/
theorem C47_contexts_exist {I : HeapIn} (wf : I.Wf) {comp : List Blk}
    (hc : ∀ b, b ∈ comp → b ∈ I.co.blocks I.f) {info : HNode → HCtx} {st : HState}
    (hs : HeapSteps I comp (heapStart I comp info) st) : WorkReal I st.work := by
  induction hs with
  | refl =>
    unfold heapStart
    split
    · intro p hp; cases hp
    · exact updateWork_real wf (st := ⟨info, []⟩) (fun p hp => by cases hp)
        (hc _ List.mem_cons_self)
  | step _ h ih => exact heapStep_real wf hc ih h

end Verif
