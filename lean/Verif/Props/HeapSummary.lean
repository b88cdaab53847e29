import Verif.Props.HeapSample
import Verif.Props.Local

/-!
C62: what the heap analysis does to a function's summary.
-/

namespace Verif

theorem updAddr_fold (I : HeapIn) (info : HNode → HCtx) (b : Blk) (l : List Nat)
    (o : HeapOut × List Nat) :
    l.foldl (updAddr I info b) o =
      ({ unknownWrites := o.1.unknownWrites
         unsafeBlocks := o.1.unsafeBlocks
         heapWrites := o.1.heapWrites ++
           (l.filter (fun a => writeType I info b a == some .heap)).map (fun a => (I.co.start b, a))
         argWrites := o.1.argWrites ++
           (l.filter (fun a => writeType I info b a == some .arg)).map (fun a => (I.co.start b, a))
         heapOrArgWrites := o.1.heapOrArgWrites ++
           (l.filter (fun a => writeType I info b a == some .heapOrArg)).map
             (fun a => (I.co.start b, a)) },
       o.2 ++ l.filter (fun a => writeType I info b a == some .heap)) := by
  induction l generalizing o with
  | nil => simp
  | cons a l ih =>
    rw [List.foldl_cons, ih]
    unfold updAddr
    cases h : writeType I info b a with
    | none => simp [h]
    | some t => cases t <;> simp [h]

theorem allHeap_iff (p : List Nat) (w : Nat → Option Loc) :
    (p.filter (fun a => !(p.filter (fun a => w a == some .heap)).contains a)).isEmpty = true ↔
      ∀ a, a ∈ p → w a = some .heap := by
  rw [List.isEmpty_iff, List.filter_eq_nil_iff]
  constructor
  · intro h a ha
    have := h a ha
    simp only [Bool.not_eq_true', Bool.not_eq_false, List.contains_iff_mem, List.mem_filter,
      beq_iff_eq] at this
    exact this.2
  · intro h a ha
    simp only [Bool.not_eq_true', Bool.not_eq_false, List.contains_iff_mem, List.mem_filter,
      beq_iff_eq]
    exact ⟨ha, h a ha⟩

theorem updEntry_fold (I : HeapIn) (info : HNode → HCtx) (m : List (Blk × List Nat))
    (o : HeapOut × List Blk) :
    let r := m.foldl (updEntry I info) o
    r.1.unknownWrites = o.1.unknownWrites ∧ r.1.unsafeBlocks = o.1.unsafeBlocks ∧
    (∀ x, x ∈ r.1.heapWrites ↔ x ∈ o.1.heapWrites ∨ ∃ p, p ∈ m ∧ ∃ a, a ∈ p.2 ∧
      writeType I info p.1 a = some .heap ∧ x = (I.co.start p.1, a)) ∧
    (∀ x, x ∈ r.1.argWrites ↔ x ∈ o.1.argWrites ∨ ∃ p, p ∈ m ∧ ∃ a, a ∈ p.2 ∧
      writeType I info p.1 a = some .arg ∧ x = (I.co.start p.1, a)) ∧
    (∀ x, x ∈ r.1.heapOrArgWrites ↔ x ∈ o.1.heapOrArgWrites ∨ ∃ p, p ∈ m ∧ ∃ a, a ∈ p.2 ∧
      writeType I info p.1 a = some .heapOrArg ∧ x = (I.co.start p.1, a)) ∧
    (∀ b, b ∈ r.2 ↔ b ∈ o.2 ∨ ∃ l, (b, l) ∈ m ∧ ∀ a, a ∈ l → writeType I info b a = some .heap) := by
  induction m generalizing o with
  | nil => simp
  | cons p m ih =>
    obtain ⟨h1, h2, h3, h4, h5, h6⟩ := ih (updEntry I info o p)
    have hw : (updEntry I info o p).1 = (p.2.foldl (updAddr I info p.1) (o.1, [])).1 := by
      unfold updEntry; dsimp only; split <;> rfl
    have hb : ∀ b, b ∈ (updEntry I info o p).2 ↔
        b ∈ o.2 ∨ (b = p.1 ∧ ∀ a, a ∈ p.2 → writeType I info p.1 a = some .heap) := by
      intro b
      unfold updEntry
      have := allHeap_iff p.2 (writeType I info p.1)
      rw [updAddr_fold]
      simp only [List.nil_append]
      by_cases e : (p.2.filter (fun a => !(p.2.filter (fun a =>
          writeType I info p.1 a == some .heap)).contains a)).isEmpty = true
      · rw [if_pos e]
        simp only [List.mem_append, List.mem_singleton]
        exact ⟨fun h => h.imp id (fun h => ⟨h, this.1 e⟩), fun h => h.imp id And.left⟩
      · rw [if_neg e]
        exact ⟨.inl, fun h => h.elim id (fun h => absurd (this.2 h.2) e)⟩
    rw [updAddr_fold] at hw
    rw [List.foldl_cons]
    refine ⟨by rw [h1, hw], by rw [h2, hw], fun x => ?_, fun x => ?_, fun x => ?_, fun b => ?_⟩
    · rw [h3, hw]
      simp only [List.mem_append, List.mem_map, List.mem_filter, beq_iff_eq, List.mem_cons]
      constructor
      · rintro ((h | ⟨a, ⟨ha, hwt⟩, rfl⟩) | ⟨q, hq, h⟩)
        · exact .inl h
        · exact .inr ⟨p, .inl rfl, a, ha, hwt, rfl⟩
        · exact .inr ⟨q, .inr hq, h⟩
      · rintro (h | ⟨q, rfl | hq, h⟩)
        · exact .inl (.inl h)
        · obtain ⟨a, ha, hwt, rfl⟩ := h; exact .inl (.inr ⟨a, ⟨ha, hwt⟩, rfl⟩)
        · exact .inr ⟨q, hq, h⟩
    · rw [h4, hw]
      simp only [List.mem_append, List.mem_map, List.mem_filter, beq_iff_eq, List.mem_cons]
      constructor
      · rintro ((h | ⟨a, ⟨ha, hwt⟩, rfl⟩) | ⟨q, hq, h⟩)
        · exact .inl h
        · exact .inr ⟨p, .inl rfl, a, ha, hwt, rfl⟩
        · exact .inr ⟨q, .inr hq, h⟩
      · rintro (h | ⟨q, rfl | hq, h⟩)
        · exact .inl (.inl h)
        · obtain ⟨a, ha, hwt, rfl⟩ := h; exact .inl (.inr ⟨a, ⟨ha, hwt⟩, rfl⟩)
        · exact .inr ⟨q, hq, h⟩
    · rw [h5, hw]
      simp only [List.mem_append, List.mem_map, List.mem_filter, beq_iff_eq, List.mem_cons]
      constructor
      · rintro ((h | ⟨a, ⟨ha, hwt⟩, rfl⟩) | ⟨q, hq, h⟩)
        · exact .inl h
        · exact .inr ⟨p, .inl rfl, a, ha, hwt, rfl⟩
        · exact .inr ⟨q, .inr hq, h⟩
      · rintro (h | ⟨q, rfl | hq, h⟩)
        · exact .inl (.inl h)
        · obtain ⟨a, ha, hwt, rfl⟩ := h; exact .inl (.inr ⟨a, ⟨ha, hwt⟩, rfl⟩)
        · exact .inr ⟨q, hq, h⟩
    · rw [h6, hb]
      constructor
      · rintro ((h | ⟨rfl, h⟩) | ⟨l, hl, h⟩)
        · exact .inl h
        · exact .inr ⟨p.2, List.mem_cons_self, h⟩
        · exact .inr ⟨l, List.mem_cons_of_mem _ hl, h⟩
      · rintro (h | ⟨l, hl, h⟩)
        · exact .inl (.inl h)
        · rcases List.mem_cons.1 hl with e | hl
          · subst e; exact .inl (.inr ⟨rfl, h⟩)
          · exact .inr ⟨l, hl, h⟩

/-- C62.  A block loses its mark exactly if it is listed with unknown writes and all of them
were found to be to the heap. -/
theorem C62_marks (I : HeapIn) (info : HNode → HCtx) (s : FuncSummary) (b : Blk) :
    b ∈ (heapSummary I info s).unsafeBlocks ↔
      b ∈ s.unsafeBlocks ∧ ¬ ∃ l, (b, l) ∈ s.unknownWrites ∧
        ∀ a, a ∈ l → writeType I info b a = some .heap := by
  obtain ⟨h1, h2, _, _, _, h6⟩ := updEntry_fold I info s.unknownWrites
    ({ unknownWrites := s.unknownWrites, unsafeBlocks := s.unsafeBlocks }, [])
  simp only [heapSummary, updateSummary]
  rw [List.mem_filter, h2]
  refine and_congr Iff.rfl ?_
  rw [Bool.not_eq_true', Bool.eq_false_iff, Ne, List.contains_iff_mem, h6]
  simp

/-- C62.  The list of unknown writes of a block is either kept, with all its addresses, or
dropped; the latter exactly if all were found to be to the heap. -/
theorem C62_unknown_writes (I : HeapIn) (info : HNode → HCtx) (s : FuncSummary)
    (hk : ∀ b l l', (b, l) ∈ s.unknownWrites → (b, l') ∈ s.unknownWrites → l = l')
    (b : Blk) (l : List Nat) :
    (b, l) ∈ (heapSummary I info s).unknownWrites ↔
      (b, l) ∈ s.unknownWrites ∧ ∃ a, a ∈ l ∧ writeType I info b a ≠ some .heap := by
  obtain ⟨h1, h2, _, _, _, h6⟩ := updEntry_fold I info s.unknownWrites
    ({ unknownWrites := s.unknownWrites, unsafeBlocks := s.unsafeBlocks }, [])
  simp only [heapSummary, updateSummary]
  rw [List.mem_filter, h1, Bool.not_eq_true', Bool.eq_false_iff, Ne, List.contains_iff_mem, h6]
  simp only [List.not_mem_nil, false_or]
  refine and_congr_right fun hm => ?_
  constructor
  · intro h
    refine Classical.byContradiction fun hc => h ⟨l, hm, fun a ha => ?_⟩
    exact Classical.byContradiction fun hne => hc ⟨a, ha, hne⟩
  · rintro ⟨a, ha, hne⟩ ⟨l', hl', h⟩
    have := hk b l l' hm hl'
    subst this
    exact hne (h a ha)

/-- C62.  Nothing else in the summary changes. -/
theorem C62_rest (I : HeapIn) (info : HNode → HCtx) (s : FuncSummary) :
    ∃ u m, heapSummary I info s = { s with unknownWrites := u, unsafeBlocks := m } :=
  ⟨_, _, rfl⟩

/-- C62.  A write is reported as heap, argument, or either, exactly if it was unknown before
and that is what was found. -/
theorem C62_reported (I : HeapIn) (info : HNode → HCtx) (u : List (Blk × List Nat))
    (ub : List Blk) (x : Nat × Nat) :
    let o := updateSummary I info { unknownWrites := u, unsafeBlocks := ub }
    let found := fun t => ∃ b l a, (b, l) ∈ u ∧ a ∈ l ∧ writeType I info b a = some t ∧
      x = (I.co.start b, a)
    (x ∈ o.heapWrites ↔ found .heap) ∧ (x ∈ o.argWrites ↔ found .arg) ∧
    (x ∈ o.heapOrArgWrites ↔ found .heapOrArg) := by
  obtain ⟨_, _, h3, h4, h5, _⟩ := updEntry_fold I info u
    ({ unknownWrites := u, unsafeBlocks := ub }, [])
  simp only [updateSummary]
  rw [h3, h4, h5]
  simp only [List.not_mem_nil, false_or]
  refine ⟨⟨?_, ?_⟩, ⟨?_, ?_⟩, ⟨?_, ?_⟩⟩
  all_goals first
    | (rintro ⟨⟨b, l⟩, hp, a, ha, h, rfl⟩; exact ⟨b, l, a, hp, ha, h, rfl⟩)
    | (rintro ⟨b, l, a, hp, ha, h, rfl⟩; exact ⟨(b, l), hp, a, ha, h, rfl⟩)

/-- The sample with a write to the return address in the loop. -/
def heapStack : StackInfo where
  insns b := if b = 2 then
      [{ addr := 4128, writesMemory := true, outs := [.unknown] },
       { addr := 4132, writesMemory := true, outs := [.stack (-8)] }]
    else []
  heightEnd _ := none
  heightStart _ := none

/-- C62, negation of the claim that a block keeps its mark while there is another reason: a
block which also writes to the return address slot is no longer marked. -/
theorem C62_refuted :
    let info := heapRunAll heapSample 20 heapComps (fun _ => HCtx.init)
    Analyses heapSample heapComps (fun _ => HCtx.init) info ∧
    (∃ i, i ∈ heapStack.insns 2 ∧ i.frameSwitch = false ∧ i.writesMemory = true ∧
      AbsLoc.stack (-8) ∈ i.outs) ∧
    2 ∈ (stackHeight heapCode heapStack 0 {}).unsafeBlocks ∧
    2 ∉ (heapSummary heapSample info (stackHeight heapCode heapStack 0 {})).unsafeBlocks := by
  refine ⟨heapRunAll_analyses heapSample_done, ⟨_, List.mem_cons_of_mem _ List.mem_cons_self,
    rfl, rfl, List.mem_singleton.2 rfl⟩, by decide +kernel, by decide +kernel⟩

/-- C62, part.  A block with a reason which is not an unknown write keeps its mark if one of
its unknown writes, if any, is not found to be to the heap; blocks without unknown writes
always keep theirs. -/
theorem C62_keeps_partial (I : HeapIn) (info : HNode → HCtx) (co : CodeObj) (si : StackInfo)
    (f : Func) {b : Blk} (hb : b ∈ co.blocks f) (hd : ∃ i ∈ si.insns b, DangerousInsn i)
    (hu : ∀ l, (b, l) ∈ (stackHeight co si f {}).unknownWrites →
      ∃ a, a ∈ l ∧ writeType I info b a ≠ some .heap) :
    b ∈ (heapSummary I info (stackHeight co si f {})).unsafeBlocks := by
  rw [C62_marks]
  refine ⟨(C51_unsafe_blocks co si f {} rfl b).2 (.inr ⟨hb, hd⟩), ?_⟩
  rintro ⟨l, hl, h⟩
  obtain ⟨a, ha, hn⟩ := hu l hl
  exact hn (h a ha)

/-- With nothing known the mark stays. -/
example : 2 ∈ (heapSummary heapSample (fun _ => HCtx.init)
    (stackHeight heapCode heapStack 0 {})).unsafeBlocks := by
  refine C62_keeps_partial _ _ _ _ _ (by decide) ⟨_, List.mem_cons_of_mem _ List.mem_cons_self,
    ?_⟩ (fun l hl => ?_)
  · exact ⟨rfl, rfl, _, List.mem_singleton.2 rfl, by simp [Dangerous]⟩
  · have : (2, l) = (2, [4128]) := List.mem_singleton.1 hl
    injection this with _ this
    subst this
    exact ⟨4128, List.mem_cons_self, by decide +kernel⟩

end Verif
