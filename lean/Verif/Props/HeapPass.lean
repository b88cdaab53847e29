import Verif.HeapPass
import Verif.Props.HeapSound
import Verif.Props.HeapTerm

/-!
# C70: the heap pass as a whole
-/

namespace Verif

/-- C70.  The pass ends, with the same result however often it is run, for every function whose
entry block has two instructions or no edge to itself. -/
theorem C70_finishes (I : HeapIn) {loops : List (List Blk)} {kids : List Nat → List Nat}
    {members : List Blk → List Blk} (hk : Enumerates kids) (hd : LoopsDisjoint loops)
    (he : I.co.entry I.f ∈ I.co.blocks I.f)
    (hL : ∀ b e, b ∈ I.co.blocks I.f → e ∈ I.co.targets b → Followed e → e.trg ∈ I.co.blocks I.f)
    (hs : 1 < (I.insns (I.co.entry I.f)).length ∨
      ∀ e, e ∈ I.co.targets (I.co.entry I.f) → e.trg ≠ I.co.entry I.f) :
    ∃ info, HeapPass I loops kids members info ∧
      ∀ info', HeapPass I loops kids members info' → info' = info := by
  obtain ⟨⟨root, st⟩, h⟩ := C63_total I.co I.f loops he hL
  obtain ⟨order, ho, _, _⟩ := C64_covers hd h
    (children := fun c => kids (st.comp c).children) (fun c d => hk.mem _ _)
  obtain ⟨info, ha⟩ := C60_terminates_partial I (order.map fun c => members (st.comp c).blocks)
    (by
      rintro comp _ ⟨h1, _, e, h2, h3⟩
      rcases hs with hs | hs
      · omega
      · exact hs e h2 h3)
  refine ⟨info, ⟨root, st, order, h, ho, ha⟩, ?_⟩
  rintro info' ⟨root', st', order', h', ho', ha'⟩
  rw [h] at h'; cases h'
  rw [ho] at ho'; cases ho'
  exact C60_unique ha' ha

/-- C70.  The pass takes the entry alone first and then the other components, each after all
blocks from which control comes into it. -/
theorem C70_shape {I : HeapIn} {loops : List (List Blk)} (g : GraphOk I loops)
    {kids : List Nat → List Nat} (hk : Enumerates kids) {members : List Blk → List Blk}
    (hm : Enumerates members) (wf : I.Wf) (src : SourcesOk I) (one : OneCall I)
    (once : EntryOnce I) (he : I.co.entry I.f ∈ I.co.blocks I.f) {info : HNode → HCtx}
    (h : HeapPass I loops kids members info) :
    ∃ comps, HeapShape I (deadBlocks I) comps ∧
      Analyses I ([I.co.entry I.f] :: comps) (fun _ => HCtx.init) info := by
  obtain ⟨root, st, order, h1, h2, h3⟩ := h
  obtain ⟨rest, rfl, e1, e2, e3⟩ := pass_ordered g h1 hk hm h2
  rw [List.map_cons, e1] at h3
  refine ⟨_, ⟨wf, src, one, once, he, fun hd => (mem_deadBlocks.1 hd).2 .refl,
    fun n m hf hd => ?_, e2, e3⟩, h3⟩
  cases hf with
  | next _ _ => exact hd
  | edge k1 k2 k3 k4 _ =>
    exact mem_deadBlocks.2 ⟨k1, fun hr =>
      (mem_deadBlocks.1 hd).2 (hr.step k2 (flow_followed g k2 k3 k4))⟩

/-- C70, part.  What `C61_writes_partial` says of the addresses reported by the analysis holds of
the result of the pass: the order of the components, and which blocks they consist of, follow
from the control flow graph.  Left out, as there: functions in which some instruction that can
be reached changes no fact. -/
theorem C70_writes_partial {I : HeapIn} {loops : List (List Blk)} (g : GraphOk I loops)
    {kids : List Nat → List Nat} (hk : Enumerates kids) {members : List Blk → List Blk}
    (hm : Enumerates members) (wf : I.Wf) (src : SourcesOk I) (one : OneCall I)
    (once : EntryOnce I) (he : I.co.entry I.f ∈ I.co.blocks I.f) {info : HNode → HCtx}
    (h : HeapPass I loops kids members info)
    (entryNews : HCtx.same (setArgs HCtx.init)
      (transferAt I (I.co.entry I.f, 0) (setArgs HCtx.init)) = false)
    (news : ∀ b k, CfgReach I.co.targets (I.co.entry I.f) b → k < (I.insns b).length →
      (b, k) ≠ (I.co.entry I.f, 0) → HCtx.same HCtx.init (info (b, k)) = false)
    {b : Blk} {k : Nat} {i : HInsn} (hi : I.insn (b, k) = some i)
    (hn : ((I.insns b).map (·.addr)).Nodup) (hop : i.op = .mov ∨ i.op = .other)
    {e : HExpr} {r : Reg} (h0 : i.op0 = some (.deref e)) (hp : e.pointer = some (.gpr r))
    {s s' : PState} (hb : OBefore I true (b, k) s) (hs : OStep I true b i s s') :
    (writeType I info b i.addr = some .heap → s.regs r = .heap ∨ (s.regs r).Untracked) ∧
    (writeType I info b i.addr = some .arg → s.regs r = .arg ∨ (s.regs r).Untracked) ∧
    (writeType I info b i.addr = some .heapOrArg →
      s.regs r = .heap ∨ s.regs r = .arg ∨ (s.regs r).Untracked) := by
  obtain ⟨comps, hsh, ha⟩ := C70_shape g hk hm wf src one once he h
  refine C61_writes_partial (dead := deadBlocks I) (comps := comps)
    ⟨hsh, entryNews, fun x j hx hd hj hne => news x j ?_ hj hne⟩ ha hi hn hop h0 hp hb hs
  exact Classical.byContradiction fun hc => hd (mem_deadBlocks.2 ⟨hx, hc⟩)

/-! ## The sample -/

/-- Elements in the order of their last occurrence. -/
def lastOnce : List Nat → List Nat
  | [] => []
  | x :: l => if x ∈ l then lastOnce l else x :: lastOnce l

theorem lastOnce_enumerates : Enumerates lastOnce := by
  have hm : ∀ l x, x ∈ lastOnce l ↔ x ∈ l := by
    intro l
    induction l with
    | nil => intro x; exact Iff.rfl
    | cons y l ih =>
      intro x
      unfold lastOnce
      split
      · rename_i h
        rw [ih, List.mem_cons]
        exact ⟨.inr, fun h' => h'.elim (fun e => e ▸ h) id⟩
      · rw [List.mem_cons, List.mem_cons, ih]
  refine ⟨hm, fun l => ?_⟩
  induction l with
  | nil => exact List.nodup_nil
  | cons y l ih =>
    unfold lastOnce
    split
    · exact ih
    · rename_i h
      exact List.nodup_cons.2 ⟨fun h' => h ((hm _ _).1 h'), ih⟩

theorem heapSample_edges {b : Blk} {e : Edge} (he : e ∈ heapSample.co.targets b) :
    (b = 0 ∧ (e = ⟨0, 0, 9, .call, false, true⟩ ∨ e = ⟨1, 0, 1, .callFt, false, false⟩)) ∨
    (b = 1 ∧ e = ⟨2, 1, 2, .fallthrough, false, false⟩) ∨
    (b = 2 ∧ (e = ⟨3, 2, 2, .condTaken, false, false⟩ ∨
      e = ⟨4, 2, 3, .condNotTaken, false, false⟩)) := by
  simp only [heapSample, heapCode] at he
  split at he
  · rename_i hb; simp at he; exact .inl ⟨hb, he⟩
  · split at he
    · rename_i hb; simp at he; exact .inr (.inl ⟨hb, he⟩)
    · split at he
      · rename_i hb; simp at he; exact .inr (.inr ⟨hb, he⟩)
      · cases he

theorem heapSample_up {a b : Nat} (h : CfgReach heapSample.co.targets a b) :
    (a : Nat) = b ∨ (a : Nat) < b := by
  induction h with
  | refl => exact .inl rfl
  | step _ he hf ih =>
    rcases heapSample_edges he with ⟨rfl, rfl | rfl⟩ | ⟨rfl, rfl⟩ | ⟨rfl, rfl | rfl⟩
    · exact absurd rfl hf.2.1
    all_goals
      rcases ih with h | h <;> first
        | (right; rw [h]; decide)
        | (left; exact h)
        | (right; refine Nat.lt_of_lt_of_le h ?_; decide)

theorem heapSample_graph : GraphOk heapSample [[2]] := by
  refine ⟨fun b e he ht => ?_, fun b e _ he hf => ?_, fun i j li lj b h1 h2 _ _ => ?_,
    fun l hl a ha b hb => ?_, fun a b h1 h2 => ?_, fun l hl => ?_⟩
  · rcases heapSample_edges he with ⟨rfl, rfl | rfl⟩ | ⟨rfl, rfl⟩ | ⟨rfl, rfl | rfl⟩ <;> simp at ht ⊢
  · rcases heapSample_edges he with ⟨rfl, rfl | rfl⟩ | ⟨rfl, rfl⟩ | ⟨rfl, rfl | rfl⟩
    · exact absurd rfl hf.2.1
    all_goals decide
  · cases i with
    | succ i => simp at h1
    | zero => cases j with
      | succ j => simp at h2
      | zero => rfl
  · rw [List.mem_singleton.1 hl] at ha hb
    rw [List.mem_singleton.1 ha, List.mem_singleton.1 hb]
    exact .refl
  · left
    rcases heapSample_up h1 with h | h
    · exact h
    · rcases heapSample_up h2 with h' | h'
      · exact h'.symm
      · exact absurd h' (Nat.lt_asymm h)
  · rw [List.mem_singleton.1 hl]; decide

/-- The contexts which the pass leaves for the sample. -/
theorem heapSample_pass : HeapPass heapSample [[2]] lastOnce lastOnce heapSampleInfo := by
  have h := C63_total heapSample.co heapSample.f [[2]] (by decide) heapSample_graph.inside
  obtain ⟨⟨root, st⟩, h⟩ := h
  have h2 : ((cfgAnalysis heapSample.co heapSample.f [[2]]).bind fun r =>
      (rpoOrder (fun c => lastOnce (r.2.comp c).children) r.2.next r.1).map fun o =>
        o.map fun c => lastOnce (r.2.comp c).blocks) = some heapComps := by decide +kernel
  rw [h, Option.bind_some] at h2
  rw [Option.map_eq_some_iff] at h2
  obtain ⟨order, h3, h4⟩ := h2
  refine ⟨root, st, order, h, h3, ?_⟩
  rw [h4]
  exact heapRunAll_analyses heapSample_done

/-- The sample meets the hypotheses. -/
example : GraphOk heapSample [[2]] ∧ Enumerates lastOnce ∧
    HeapPass heapSample [[2]] lastOnce lastOnce heapSampleInfo ∧
    newsB heapSample heapSampleInfo = true ∧ OBefore heapSample true (2, 0) heapState3 :=
  ⟨heapSample_graph, lastOnce_enumerates, heapSample_pass, by decide +kernel, heapSample_run⟩

end Verif
