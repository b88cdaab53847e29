import Verif.CfgPassLemmas
import Verif.HeapSound
import Verif.Props.CfgPass

/-!
# The heap pass as a whole (`/repo/src/passes.h:365-377`)

The component graph of `CFGAnalysis`, the order of `PostOrderTraverse` and the analysis of the
components put together.
-/

namespace Verif

/-- `HeapAnalysis(s)` and the call of `Analyse`, `/repo/src/passes.h:376`, `/repo/src/heap.h:310-365`,
on the graph left by `CFGAnalysis`: the contexts at the end.  `kids` and `members` are the
iteration orders of the sets of components and of blocks, which depend on addresses. -/
def HeapPass (I : HeapIn) (loops : List (List Blk)) (kids : List Nat → List Nat)
    (members : List Blk → List Blk) (info : HNode → HCtx) : Prop :=
  ∃ root st order, cfgAnalysis I.co I.f loops = some (root, st) ∧
    rpoOrder (fun c => kids (st.comp c).children) st.next root = some order ∧
    Analyses I (order.map fun c => members (st.comp c).blocks) (fun _ => HCtx.init) info

/-- An order in which a set is enumerated. -/
structure Enumerates {α : Type} (f : List α → List α) : Prop where
  mem : ∀ l x, x ∈ f l ↔ x ∈ l
  nodup : ∀ l, (f l).Nodup

/-- The control flow graph and its loops as Dyninst presents them. -/
structure GraphOk (I : HeapIn) (loops : List (List Blk)) : Prop where
  /-- calls and returns are edges between functions -/
  between : ∀ b e, e ∈ I.co.targets b → e.type = .call ∨ e.type = .ret → e.interproc = true
  /-- other edges stay inside -/
  inside : ∀ b e, b ∈ I.co.blocks I.f → e ∈ I.co.targets b → Followed e → e.trg ∈ I.co.blocks I.f
  /-- outer loops are disjoint -/
  disjoint : LoopsDisjoint loops
  /-- from each block of a loop to each -/
  connected : ∀ l, l ∈ loops → ∀ a, a ∈ l → ∀ b, b ∈ l → CfgReach I.co.targets a b
  /-- all cycles are in loops -/
  cycles : ∀ a b, CfgReach I.co.targets a b → CfgReach I.co.targets b a →
    a = b ∨ ∃ l, l ∈ loops ∧ a ∈ l ∧ b ∈ l
  /-- the entry is not in a loop -/
  entry : ∀ l, l ∈ loops → I.co.entry I.f ∉ l

theorem CfgReach.trans {targets : Blk → List Edge} {a b c : Blk} (h1 : CfgReach targets a b)
    (h2 : CfgReach targets b c) : CfgReach targets a c := by
  induction h2 with
  | refl => exact h1
  | step _ he hf ih => exact .step ih he hf

theorem CfgReach.blocks {I : HeapIn} {loops : List (List Blk)} (g : GraphOk I loops) {a b : Blk}
    (h : CfgReach I.co.targets a b) (ha : a ∈ I.co.blocks I.f) : b ∈ I.co.blocks I.f := by
  induction h with
  | refl => exact ha
  | step _ he hf ih => exact g.inside _ _ ih he hf

/-- Blocks of a component on the way from the entry reach each other. -/
theorem comp_connected {I : HeapIn} {loops : List (List Blk)} (g : GraphOk I loops) {root : Nat}
    {st : CompSt} (h : cfgAnalysis I.co I.f loops = some (root, st)) {c : Nat} {a b : Blk}
    (ha : a ∈ (st.comp c).blocks) (hb : b ∈ (st.comp c).blocks) : CfgReach I.co.targets a b := by
  obtain ⟨hinv, _, _, _⟩ := cfgAnalysis_post g.disjoint h
  rcases Nat.lt_or_ge c loops.length with hc | hc
  · have hl := hinv.loopBlocks c _ (List.getElem?_eq_getElem hc)
    exact g.connected _ (List.getElem_mem hc) a ((hl a).1 ha) b ((hl b).1 hb)
  · rw [hinv.single c hc a b ha hb]; exact .refl

theorem compReach_blocks {I : HeapIn} {loops : List (List Blk)} (g : GraphOk I loops) {root : Nat}
    {st : CompSt} (h : cfgAnalysis I.co I.f loops = some (root, st)) {children : Nat → List Nat}
    (hc : ∀ c d, d ∈ children c ↔ d ∈ (st.comp c).children) {c d : Nat}
    (hr : CompReach children c d) {a b : Blk} (ha : a ∈ (st.comp c).blocks)
    (hb : b ∈ (st.comp d).blocks) : CfgReach I.co.targets a b := by
  induction hr generalizing b with
  | refl => exact comp_connected g h ha hb
  | step _ hm ih =>
    obtain ⟨t, _, ht, x, e, _, hx, he, hf, rfl⟩ :=
      (C63_edges g.disjoint h _ _).1.1 ((hc _ _).1 hm)
    exact ((ih hx).step he hf).trans (comp_connected g h ht hb)

theorem rpoOrder_head {children : Nat → List Nat} {n root : Nat} {order : List Nat}
    (h : rpoOrder children n root = some order) : ∃ l, order = root :: l := by
  unfold rpoOrder at h
  rw [Option.map_eq_some_iff] at h
  obtain ⟨⟨V, rpo⟩, h, rfl⟩ := h
  cases n with
  | zero => unfold postOrder at h; rw [if_neg List.not_mem_nil] at h; cases h
  | succ n =>
    unfold postOrder at h
    rw [if_neg List.not_mem_nil] at h
    split at h
    · cases h
    · cases h; exact ⟨_, rfl⟩

/-- The blocks which control cannot reach without exceptions. -/
noncomputable def deadBlocks (I : HeapIn) : List Blk :=
  open Classical in (I.co.blocks I.f).filter fun b => decide (¬ CfgReach I.co.targets (I.co.entry I.f) b)

theorem mem_deadBlocks {I : HeapIn} {b : Blk} :
    b ∈ deadBlocks I ↔ b ∈ I.co.blocks I.f ∧ ¬ CfgReach I.co.targets (I.co.entry I.f) b := by
  unfold deadBlocks; simp

theorem flow_followed {I : HeapIn} {loops : List (List Blk)} (g : GraphOk I loops) {b : Blk}
    {e : Edge} (he : e ∈ I.co.targets b) (h1 : e.interproc = false) (h2 : e.type ≠ .catch) :
    Followed e :=
  ⟨h2, fun ht => (by rw [g.between b e he (.inl ht)] at h1; cases h1),
    fun ht => (by rw [g.between b e he (.inr ht)] at h1; cases h1), h1⟩

/-- The components come in an order that fits. -/
theorem pass_ordered {I : HeapIn} {loops : List (List Blk)} (g : GraphOk I loops) {root : Nat}
    {st : CompSt} (h : cfgAnalysis I.co I.f loops = some (root, st)) {kids : List Nat → List Nat}
    (hk : Enumerates kids) {members : List Blk → List Blk} (hm : Enumerates members)
    {order : List Nat}
    (ho : rpoOrder (fun c => kids (st.comp c).children) st.next root = some order) :
    ∃ rest, order = root :: rest ∧ members (st.comp root).blocks = [I.co.entry I.f] ∧
      Ordered I (I.co.entry I.f :: deadBlocks I) (rest.map fun c => members (st.comp c).blocks) ∧
      ∀ b, b ∈ I.co.blocks I.f → b = I.co.entry I.f ∨ b ∈ deadBlocks I ∨
        b ∈ (rest.map fun c => members (st.comp c).blocks).flatten := by
  have hc : ∀ c d, d ∈ (fun c => kids (st.comp c).children) c ↔ d ∈ (st.comp c).children :=
    fun c d => hk.mem _ _
  obtain ⟨rest, rfl⟩ := rpoOrder_head ho
  obtain ⟨nd, hall⟩ := C64_all_once ho
  obtain ⟨order', ho', hcov, hreach⟩ := C64_covers g.disjoint h hc
  rw [ho] at ho'; injection ho' with ho'; subst ho'
  have hroot := C63_root g.disjoint h
  have huniq : ∀ {b c d}, b ∈ (st.comp c).blocks → b ∈ (st.comp d).blocks → c = d := by
    intro b c d h1 h2
    obtain ⟨hinv, _, _, _⟩ := cfgAnalysis_post g.disjoint h
    have := (hinv.blocks b c).1 h1
    rw [(hinv.blocks b d).1 h2] at this
    injection this with this; exact this.symm
  have hlive : ∀ {b c}, c ∈ root :: rest → b ∈ (st.comp c).blocks →
      CfgReach I.co.targets (I.co.entry I.f) b := by
    intro b c h1 h2
    obtain ⟨x, hx, hxc⟩ := hreach c h1
    exact hx.trans (comp_connected g h hxc h2)
  have hone : ∀ b, b ∈ (st.comp root).blocks ↔ b = I.co.entry I.f := by
    intro b
    constructor
    · intro hb
      rcases (C63_components g.disjoint h (hlive List.mem_cons_self hb) .refl).1
        ⟨root, hb, hroot⟩ with e | ⟨l, hl, _, he⟩
      · exact e
      · exact absurd he (g.entry l hl)
    · rintro rfl; exact hroot
  refine ⟨rest, rfl, ?_, ?_, fun b hb => ?_⟩
  · have hnd := hm.nodup (st.comp root).blocks
    have hmem : ∀ b, b ∈ members (st.comp root).blocks ↔ b = I.co.entry I.f :=
      fun b => (hm.mem _ _).trans (hone b)
    generalize members (st.comp root).blocks = l at hnd hmem
    cases l with
    | nil => have := (hmem _).2 rfl; cases this
    | cons x l =>
      have hx := (hmem x).1 List.mem_cons_self
      subst hx
      cases l with
      | nil => rfl
      | cons y l =>
        have hy := (hmem y).1 (List.mem_cons_of_mem _ List.mem_cons_self)
        subst hy
        rw [List.nodup_cons] at hnd
        exact absurd List.mem_cons_self hnd.1
  · have key : ∀ (l pre : List Nat), pre ++ l = rest → ∀ done : List Blk,
        (∀ b, b ∈ done ↔ b = I.co.entry I.f ∨ b ∈ deadBlocks I ∨
          ∃ c, c ∈ pre ∧ b ∈ (st.comp c).blocks) →
        Ordered I done (l.map fun c => members (st.comp c).blocks) := by
      intro l
      induction l with
      | nil => intro _ _ _ _; exact .nil
      | cons c l ih =>
        intro pre hpre done hdone
        have hcr : c ∈ root :: rest := by
          rw [← hpre]; simp
        have hnr : root ∉ rest := (List.nodup_cons.1 nd).1
        have hnd2 : (pre ++ c :: l).Nodup := by rw [hpre]; exact (List.nodup_cons.1 nd).2
        rw [List.map_cons]
        refine .cons (fun b hb hd => ?_) (fun n m hf hmc => ?_)
          (ih (pre ++ [c]) (by rw [← hpre]; simp) _ fun b => ?_)
        · rw [hm.mem] at hb
          rcases (hdone b).1 hd with e | e | ⟨d, h1, h2⟩
          · subst e
            have := huniq hb hroot
            subst this
            exact hnr (by rw [← hpre]; simp)
          · exact (mem_deadBlocks.1 e).2 (hlive hcr hb)
          · have := huniq hb h2
            subst this
            rw [List.nodup_append] at hnd2
            exact hnd2.2.2 _ h1 _ List.mem_cons_self rfl
        · rw [hm.mem] at hmc
          cases hf with
          | next _ _ => exact .inl ((hm.mem _ _).2 hmc)
          | @edge b e k1 k2 k3 k4 k5 =>
            have hfol := flow_followed g k2 k3 k4
            dsimp only at hmc ⊢
            rw [hm.mem, hdone]
            by_cases hr : CfgReach I.co.targets (I.co.entry I.f) b
            · obtain ⟨d, hd, hbd⟩ := hcov b hr
              by_cases hdc : d = c
              · subst hdc; exact .inl hbd
              · right
                have hchild : c ∈ (st.comp d).children :=
                  (C63_edges g.disjoint h d c).1.2 ⟨e.trg, hdc, hmc, b, e, hr, hbd, k2, hfol, rfl⟩
                have hac : ¬ CompReach (fun c => kids (st.comp c).children) c d := by
                  intro hcd
                  have back := compReach_blocks g h hc hcd hmc hbd
                  rcases g.cycles b e.trg (.step .refl k2 hfol) back with heq | ⟨L, hL, h1, h2⟩
                  · rw [heq] at hbd; exact hdc (huniq hbd hmc)
                  · obtain ⟨x, hx1, hx2⟩ := (C63_components g.disjoint h hr (hr.step k2 hfol)).2
                      (.inr ⟨L, hL, h1, h2⟩)
                    exact hdc ((huniq hbd hx1).trans (huniq hx2 hmc))
                obtain ⟨l1, l2, l3, hsplit⟩ := C64_order ho hd ((hc d c).2 hchild) hac
                -- `d` comes before `c`
                have hdpre : d = root ∨ d ∈ pre := by
                  have hsplit' : root :: (pre ++ c :: l) = l1 ++ d :: l2 ++ c :: l3 := by
                    rw [hpre]; exact hsplit
                  have hcut : ∀ (A B A' B' : List Nat), A ++ c :: B = A' ++ c :: B' →
                      (A ++ c :: B).Nodup → A = A' := by
                    intro A
                    induction A with
                    | nil =>
                      intro B A' B' e1 e2
                      cases A' with
                      | nil => rfl
                      | cons y A' =>
                        rw [List.nil_append, List.cons_append] at e1
                        injection e1 with e3 e4
                        subst e3
                        rw [List.nil_append, e4, List.nodup_cons] at e2
                        exact absurd (by simp) e2.1
                    | cons x A ih2 =>
                      intro B A' B' e1 e2
                      cases A' with
                      | nil =>
                        rw [List.cons_append, List.nil_append] at e1
                        injection e1 with e3 e4
                        subst e3
                        rw [List.cons_append, List.nodup_cons] at e2
                        exact absurd (by simp) e2.1
                      | cons y A' =>
                        rw [List.cons_append, List.cons_append] at e1
                        injection e1 with e3 e4
                        subst e3
                        rw [List.cons_append, List.nodup_cons] at e2
                        rw [ih2 _ _ _ e4 e2.2]
                  have hA := hcut (root :: pre) l (l1 ++ d :: l2) l3 hsplit' (by
                    rw [List.cons_append, hpre]; exact nd)
                  have : d ∈ root :: pre := by rw [hA]; simp
                  exact List.mem_cons.1 this
                rcases hdpre with e1 | e1
                · subst e1; exact .inl ((hone b).1 hbd)
                · exact .inr (.inr ⟨d, e1, hbd⟩)
            · exact .inr (.inr (.inl (mem_deadBlocks.2 ⟨k1, hr⟩)))
        · rw [List.mem_append, hdone, hm.mem]
          constructor
          · rintro ((e | e | ⟨d, h1, h2⟩) | e)
            · exact .inl e
            · exact .inr (.inl e)
            · exact .inr (.inr ⟨d, List.mem_append_left _ h1, h2⟩)
            · exact .inr (.inr ⟨c, List.mem_append_right _ (List.mem_singleton.2 rfl), e⟩)
          · rintro (e | e | ⟨d, h1, h2⟩)
            · exact .inl (.inl e)
            · exact .inl (.inr (.inl e))
            · rcases List.mem_append.1 h1 with h1 | h1
              · exact .inl (.inr (.inr ⟨d, h1, h2⟩))
              · rw [List.mem_singleton.1 h1] at h2; exact .inr h2
    exact key rest [] rfl _ fun b => by simp
  · by_cases hr : CfgReach I.co.targets (I.co.entry I.f) b
    · obtain ⟨c, h1, h2⟩ := hcov b hr
      rcases List.mem_cons.1 h1 with e | e
      · subst e; exact .inl ((hone b).1 h2)
      · refine .inr (.inr ?_)
        rw [List.mem_flatten]
        exact ⟨_, List.mem_map.2 ⟨c, e, rfl⟩, (hm.mem _ _).2 h2⟩
    · exact .inr (.inl (mem_deadBlocks.2 ⟨hb, hr⟩))

end Verif
