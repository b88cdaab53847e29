import Verif.CfgPassLemmas

/-!
C63: the component graph.  C64: the order in which components are analysed.
-/

namespace Verif

/-- Everything known about the result. -/
theorem cfgAnalysis_post {co : CodeObj} {f : Func} {loops : List (List Blk)}
    (hd : LoopsDisjoint loops) {root : Nat} {st : CompSt}
    (h : cfgAnalysis co f loops = some (root, st)) :
    CompInv co.targets (co.entry f) loops st ∧ st.scOf (co.entry f) = some root ∧
    co.entry f ∈ st.visited ∧ ∀ b, b ∈ st.visited → CfgBlockDone co.targets st b := by
  obtain ⟨h0, hv0, hn0⟩ := addLoops_inv (targets := co.targets) (r := co.entry f) loops hd
  unfold cfgAnalysis at h
  simp only [Option.map_eq_some_iff] at h
  obtain ⟨st', hvis, he⟩ := h
  injection he with he1 he2
  subst he2
  generalize loops.foldl addLoop {} = s0 at *
  have hinv : CompInv co.targets (co.entry f) loops
      (enterBlock (targetComp s0 (co.entry f)).2 (co.entry f) (targetComp s0 (co.entry f)).1) := by
    cases hs : s0.scOf (co.entry f) with
    | some d =>
      have hp : targetComp s0 (co.entry f) = (d, s0) := by unfold targetComp; rw [hs]
      rw [hp]; exact compInv_enter h0 hs .refl
    | none =>
      have hp : targetComp s0 (co.entry f) = (s0.next, { s0 with next := s0.next + 1 }) := by
        unfold targetComp; rw [hs]
      rw [hp]; exact compInv_new h0 hs .refl
  have hvs : (targetComp s0 (co.entry f)).2.visited = [] := by
    have : (targetComp s0 (co.entry f)).2.visited = s0.visited := by
      unfold targetComp; split <;> rfl
    rw [this, hv0]
  obtain ⟨hp, hdone⟩ := cfgVisit_post _ _ _ _ _ hvis hinv
  refine ⟨hp.inv, ?_, hp.ext.vis _ (enter_vis _ _ _), fun b hb => ?_⟩
  · rw [← he1]; exact hp.ext.sc _ _ (enter_sc _ _ _)
  · by_cases e : b = co.entry f
    · rw [e]; exact hdone
    · refine hp.done b hb (fun hin => ?_)
      have : b = co.entry f ∨ b ∈ (targetComp s0 (co.entry f)).2.visited := List.mem_cons.1 hin
      rcases this with h' | h'
      · exact e h'
      · rw [hvs] at h'; cases h'

/-- The blocks visited are those reachable from the entry. -/
theorem cfg_visited {co : CodeObj} {f : Func} {loops : List (List Blk)}
    (hd : LoopsDisjoint loops) {root : Nat} {st : CompSt}
    (h : cfgAnalysis co f loops = some (root, st)) (b : Blk) :
    b ∈ st.visited ↔ CfgReach co.targets (co.entry f) b := by
  obtain ⟨hinv, _, he, hdone⟩ := cfgAnalysis_post hd h
  constructor
  · intro hb; exact (hinv.vis b hb).2
  · intro hr
    induction hr with
    | refl => exact he
    | step _ hmem hf ih =>
      obtain ⟨c, _, hed⟩ := hdone _ ih
      exact ((hed _ hmem).next hf).1

/-- C63.  The pass ends if the edges it follows stay among the blocks of the function. -/
theorem C63_total (co : CodeObj) (f : Func) (loops : List (List Blk))
    (he : co.entry f ∈ co.blocks f)
    (hL : ∀ b e, b ∈ co.blocks f → e ∈ co.targets b → Followed e → e.trg ∈ co.blocks f) :
    ∃ r, cfgAnalysis co f loops = some r := by
  have hv : ∀ (l : List (List Blk)) (s : CompSt), (l.foldl addLoop s).visited = s.visited := by
    intro l
    induction l with
    | nil => intro s; rfl
    | cons a l ih => intro s; rw [List.foldl_cons, ih]; rfl
  have hvs : (targetComp (loops.foldl addLoop {}) (co.entry f)).2.visited = [] := by
    have : (targetComp (loops.foldl addLoop {}) (co.entry f)).2.visited =
        (loops.foldl addLoop {}).visited := by
      unfold targetComp; split <;> rfl
    rw [this, hv]
  obtain ⟨st, hst⟩ := cfgVisit_total hL ((co.blocks f).length + 1)
    (targetComp (loops.foldl addLoop {}) (co.entry f)).2 (co.entry f)
    (targetComp (loops.foldl addLoop {}) (co.entry f)).1 he (by rw [hvs]; exact List.not_mem_nil)
    (by
      unfold cfgUnvisited
      exact Nat.le_trans (List.length_filter_le _ _) (Nat.le_succ _))
  exact ⟨_, by unfold cfgAnalysis; simp only; rw [hst]; rfl⟩

/-- C63.  Every block that can be reached from the entry lies in exactly one component. -/
theorem C63_partition {co : CodeObj} {f : Func} {loops : List (List Blk)}
    (hd : LoopsDisjoint loops) {root : Nat} {st : CompSt}
    (h : cfgAnalysis co f loops = some (root, st)) {b : Blk}
    (hb : CfgReach co.targets (co.entry f) b) :
    ∃ c, b ∈ (st.comp c).blocks ∧ ∀ d, b ∈ (st.comp d).blocks → d = c := by
  obtain ⟨hinv, _, _, _⟩ := cfgAnalysis_post hd h
  obtain ⟨⟨c, hc⟩, _⟩ := hinv.vis b ((cfg_visited hd h b).2 hb)
  refine ⟨c, (hinv.blocks b c).2 hc, fun d hd' => ?_⟩
  have := (hinv.blocks b d).1 hd'
  rw [hc] at this; injection this with this; exact this.symm

/-- C63.  Two reachable blocks share a component exactly if they are the same or lie in a common
outer loop. -/
theorem C63_components {co : CodeObj} {f : Func} {loops : List (List Blk)}
    (hd : LoopsDisjoint loops) {root : Nat} {st : CompSt}
    (h : cfgAnalysis co f loops = some (root, st)) {a b : Blk}
    (ha : CfgReach co.targets (co.entry f) a) (hb : CfgReach co.targets (co.entry f) b) :
    (∃ c, a ∈ (st.comp c).blocks ∧ b ∈ (st.comp c).blocks) ↔
      a = b ∨ ∃ l, l ∈ loops ∧ a ∈ l ∧ b ∈ l := by
  obtain ⟨hinv, _, _, _⟩ := cfgAnalysis_post hd h
  constructor
  · rintro ⟨c, h1, h2⟩
    rcases Nat.lt_or_ge c loops.length with hc | hc
    · have hl := hinv.loopBlocks c _ (List.getElem?_eq_getElem hc)
      exact .inr ⟨_, List.getElem_mem hc, (hl a).1 h1, (hl b).1 h2⟩
    · exact .inl (hinv.single c hc a b h1 h2)
  · rintro (rfl | ⟨l, hl, h1, h2⟩)
    · obtain ⟨c, hc, _⟩ := C63_partition hd h ha; exact ⟨c, hc, hc⟩
    · obtain ⟨c, hc, rfl⟩ := List.mem_iff_getElem.1 hl
      have hl := hinv.loopBlocks c _ (List.getElem?_eq_getElem hc)
      exact ⟨c, (hl a).2 h1, (hl b).2 h2⟩

/-- C63.  The result is the component of the entry. -/
theorem C63_root {co : CodeObj} {f : Func} {loops : List (List Blk)}
    (hd : LoopsDisjoint loops) {root : Nat} {st : CompSt}
    (h : cfgAnalysis co f loops = some (root, st)) : co.entry f ∈ (st.comp root).blocks := by
  obtain ⟨hinv, hr, _, _⟩ := cfgAnalysis_post hd h
  exact (hinv.blocks _ _).2 hr

theorem lookup_mem {α β : Type} [BEq α] [LawfulBEq α] {k : α} {v : β} :
    ∀ {l : List (α × β)}, l.lookup k = some v → (k, v) ∈ l
  | [], h => by cases h
  | (k', v') :: l, h => by
    rw [List.lookup_cons] at h
    split at h
    · rename_i e
      cases h
      rw [eq_of_beq e]
      exact List.mem_cons_self
    · exact List.mem_cons_of_mem _ (lookup_mem h)

theorem lookup_none {α β : Type} [BEq α] [LawfulBEq α] {k : α} :
    ∀ {l : List (α × β)}, l.lookup k = none → ∀ v, (k, v) ∉ l
  | [], _, v, h => by cases h
  | (k', v') :: l, h, v, hm => by
    rw [List.lookup_cons] at h
    split at h
    · cases h
    · rename_i e
      rcases List.mem_cons.1 hm with hm | hm
      · injection hm with h1 _; rw [h1] at e; simp at e
      · exact lookup_none h v hm

/-- C63.  The children of a component are exactly the other components to which an edge leads
from one of its reachable blocks; `outgoing` maps exactly the blocks where these edges arrive to
their components; `targets` maps each child to a block where such an edge arrives. -/
theorem C63_edges {co : CodeObj} {f : Func} {loops : List (List Blk)}
    (hd : LoopsDisjoint loops) {root : Nat} {st : CompSt}
    (h : cfgAnalysis co f loops = some (root, st)) (c d : Nat) :
    let leads := fun t => c ≠ d ∧ t ∈ (st.comp d).blocks ∧ ∃ b e,
      CfgReach co.targets (co.entry f) b ∧ b ∈ (st.comp c).blocks ∧ e ∈ co.targets b ∧
      Followed e ∧ e.trg = t
    (d ∈ (st.comp c).children ↔ ∃ t, leads t) ∧
    (∀ t, (st.comp c).outgoing.lookup t = some d ↔ leads t) ∧
    (∀ t, (st.comp c).targets.lookup d = some t → leads t) ∧
    ((st.comp c).targets.lookup d = none → ∀ t, ¬ leads t) := by
  obtain ⟨hinv, _, _, hdone⟩ := cfgAnalysis_post hd h
  have hv := cfg_visited hd h
  have key : ∀ t, LinkOk co.targets st c d t ↔ (c ≠ d ∧ t ∈ (st.comp d).blocks ∧ ∃ b e,
      CfgReach co.targets (co.entry f) b ∧ b ∈ (st.comp c).blocks ∧ e ∈ co.targets b ∧
      Followed e ∧ e.trg = t) := by
    intro t
    unfold LinkOk
    simp only [hinv.blocks, hv]
  have back : ∀ t, LinkOk co.targets st c d t → d ∈ (st.comp c).children ∧
      (t, d) ∈ (st.comp c).outgoing ∧ (d, t) ∈ (st.comp c).targets := by
    rintro t ⟨hne, ht, b, e, hb, hbc, he, hf, rfl⟩
    obtain ⟨c', hc', hed⟩ := hdone b hb
    rw [hbc] at hc'; injection hc' with hc'; subst hc'
    obtain ⟨_, d', hd', hl⟩ := (hed e he).next hf
    rw [ht] at hd'; injection hd' with hd'; subst hd'
    exact hl hne
  refine ⟨⟨fun hc => ?_, ?_⟩, fun t => ⟨fun hc =>
    (key t).1 (hinv.outgoing c d t (lookup_mem hc)), fun hl => ?_⟩, fun t hc =>
    (key t).1 (hinv.tgts c d t (lookup_mem hc)), fun hn t hl =>
    lookup_none hn t (back t ((key t).2 hl)).2.2⟩
  · obtain ⟨t, ht⟩ := hinv.children c d hc
    exact ⟨t, (key t).1 ht⟩
  · rintro ⟨t, ht⟩
    exact (back t ((key t).2 ht)).1
  · have hl' := (key t).2 hl
    cases ho : (st.comp c).outgoing.lookup t with
    | none => exact absurd (back t hl').2.1 (lookup_none ho d)
    | some d' =>
      have h1 := (hinv.outgoing c d' t (lookup_mem ho)).2.1
      rw [hl'.2.1] at h1
      exact h1.symm

/-- C63.  The return blocks of a component are its reachable blocks with a return edge. -/
theorem C63_returns {co : CodeObj} {f : Func} {loops : List (List Blk)}
    (hd : LoopsDisjoint loops) {root : Nat} {st : CompSt}
    (h : cfgAnalysis co f loops = some (root, st)) (c : Nat) (b : Blk) :
    b ∈ (st.comp c).returns ↔ CfgReach co.targets (co.entry f) b ∧ b ∈ (st.comp c).blocks ∧
      ∃ e, e ∈ co.targets b ∧ e.type = .ret := by
  obtain ⟨hinv, _, _, hdone⟩ := cfgAnalysis_post hd h
  have hv := cfg_visited hd h
  rw [hinv.blocks, ← hv]
  constructor
  · exact hinv.returns c b
  · rintro ⟨hb, hc, e, he, hr⟩
    obtain ⟨c', hc', hed⟩ := hdone b hb
    rw [hc] at hc'; injection hc' with hc'; subst hc'
    exact (hed e he).ret hr

/-! ## Reverse post order -/

/-- Reachable in the component graph. -/
inductive CompReach (children : Nat → List Nat) (a : Nat) : Nat → Prop
  | refl : CompReach children a a
  | step {b c} : CompReach children a b → c ∈ children b → CompReach children a c

theorem CompReach.trans {children : Nat → List Nat} {a b c : Nat} (h1 : CompReach children a b)
    (h2 : CompReach children b c) : CompReach children a c := by
  induction h2 with
  | refl => exact h1
  | step _ hm ih => exact .step ih hm

/-- Every child which is not on a cycle with its parent comes later. -/
def Topo (children : Nat → List Nat) : List Nat → Prop
  | [] => True
  | x :: l => (∀ y, y ∈ children x → CompReach children y x ∨ y ∈ l) ∧ Topo children l

/-- What a part of the traversal adds to the stack. -/
structure PoPost (children : Nat → List Nat) (V rpo V' rpo' : List Nat) (from_ : Nat → Prop) :
    Prop where
  new : ∃ new, rpo' = new ++ rpo ∧ (∀ x, x ∈ V' ↔ x ∈ V ∨ x ∈ new) ∧ (∀ x, x ∈ new → x ∉ V) ∧
    new.Nodup ∧ (∀ x, x ∈ new → (∃ c, from_ c ∧ CompReach children c x) ∧
      ∀ y, y ∈ children x → y ∈ V')
  topo : Topo children rpo → Topo children rpo'

theorem poChildren_post {children : Nat → List Nat} {V0 rpo0 : List Nat} {p : Nat}
    {visit : List Nat × List Nat → Nat → Option (List Nat × List Nat)}
    (hv : ∀ V rpo c V' rpo', visit (V, rpo) c = some (V', rpo') → (∀ x, x ∈ rpo → x ∈ V) →
      (∀ g, g ∈ V → g ∉ rpo → CompReach children g c) →
      PoPost children V rpo V' rpo' (fun d => d = c) ∧ c ∈ V')
    (hp : ∀ g, g ∈ V0 → g ∉ rpo0 → CompReach children g p) :
    ∀ (cs V rpo V' rpo' : List Nat), (∀ c, c ∈ cs → c ∈ children p) →
      poChildren visit cs (V, rpo) = some (V', rpo') → (∀ x, x ∈ rpo → x ∈ V) →
      (∀ g, g ∈ V → g ∉ rpo → g ∈ V0 ∧ g ∉ rpo0) →
      PoPost children V rpo V' rpo' (fun d => d ∈ cs) ∧ ∀ c, c ∈ cs → c ∈ V' := by
  intro cs
  induction cs with
  | nil =>
    intro V rpo V' rpo' _ h _ _
    simp only [poChildren, Option.some.injEq, Prod.mk.injEq] at h
    obtain ⟨rfl, rfl⟩ := h
    exact ⟨⟨⟨[], rfl, fun x => by simp, fun x hx => absurd hx List.not_mem_nil, List.nodup_nil,
      fun x hx => absurd hx List.not_mem_nil⟩, id⟩, fun c hc => absurd hc List.not_mem_nil⟩
  | cons c cs ih =>
    intro V rpo V' rpo' hcs h hsub hgray
    unfold poChildren at h
    cases hc : visit (V, rpo) c with
    | none => rw [hc] at h; cases h
    | some s =>
      obtain ⟨V1, rpo1⟩ := s
      rw [hc] at h
      simp only at h
      obtain ⟨⟨⟨n1, e1, v1, d1, nd1, r1⟩, t1⟩, m1⟩ := hv _ _ _ _ _ hc hsub (fun g hg hr => by
        obtain ⟨h1, h2⟩ := hgray g hg hr
        exact (hp g h1 h2).step (hcs c List.mem_cons_self))
      have hsub1 : ∀ x, x ∈ rpo1 → x ∈ V1 := by
        intro x hx
        rw [e1, List.mem_append] at hx
        rw [v1]
        exact hx.elim .inr (fun h => .inl (hsub x h))
      have hgray1 : ∀ g, g ∈ V1 → g ∉ rpo1 → g ∈ V0 ∧ g ∉ rpo0 := by
        intro g hg hr
        rw [e1, List.mem_append] at hr
        rw [v1] at hg
        rcases hg with hg | hg
        · exact hgray g hg (fun h => hr (.inr h))
        · exact absurd (.inl hg) hr
      obtain ⟨⟨⟨n2, e2, v2, d2, nd2, r2⟩, t2⟩, m2⟩ := ih V1 rpo1 V' rpo'
        (fun c' h' => hcs c' (List.mem_cons_of_mem _ h')) h hsub1 hgray1
      refine ⟨⟨⟨n2 ++ n1, ?_, ?_, ?_, ?_, ?_⟩, fun ht => t2 (t1 ht)⟩, ?_⟩
      · rw [e2, e1, List.append_assoc]
      · intro x
        rw [v2, v1, List.mem_append]
        constructor
        · rintro ((h | h) | h)
          · exact .inl h
          · exact .inr (.inr h)
          · exact .inr (.inl h)
        · rintro (h | h | h)
          · exact .inl (.inl h)
          · exact .inr h
          · exact .inl (.inr h)
      · intro x hx
        rcases List.mem_append.1 hx with hx | hx
        · exact fun hV => d2 x hx ((v1 x).2 (.inl hV))
        · exact d1 x hx
      · rw [List.nodup_append]
        refine ⟨nd2, nd1, fun a ha b hb e => ?_⟩
        subst e
        exact d2 a ha ((v1 a).2 (.inr hb))
      · intro x hx
        rcases List.mem_append.1 hx with hx | hx
        · obtain ⟨⟨d, hd, hr⟩, hy⟩ := r2 x hx
          exact ⟨⟨d, List.mem_cons_of_mem _ hd, hr⟩, hy⟩
        · obtain ⟨⟨d, hd, hr⟩, hy⟩ := r1 x hx
          exact ⟨⟨d, by rw [hd]; exact List.mem_cons_self, hr⟩, fun y hy' =>
            (v2 y).2 (.inl (hy y hy'))⟩
      · intro c' hc'
        rcases List.mem_cons.1 hc' with rfl | hc'
        · exact (v2 _).2 (.inl m1)
        · exact m2 c' hc'

theorem postOrder_post {children : Nat → List Nat} :
    ∀ (n : Nat) (V rpo : List Nat) (c : Nat) (V' rpo' : List Nat),
      postOrder children n (V, rpo) c = some (V', rpo') → (∀ x, x ∈ rpo → x ∈ V) →
      (∀ g, g ∈ V → g ∉ rpo → CompReach children g c) →
      PoPost children V rpo V' rpo' (fun d => d = c) ∧ c ∈ V' := by
  have stay : ∀ (V rpo : List Nat) (c : Nat), c ∈ V →
      PoPost children V rpo V rpo (fun d => d = c) ∧ c ∈ V := fun V rpo c h =>
    ⟨⟨⟨[], rfl, fun x => by simp, fun x hx => absurd hx List.not_mem_nil, List.nodup_nil,
      fun x hx => absurd hx List.not_mem_nil⟩, id⟩, h⟩
  intro n
  induction n with
  | zero =>
    intro V rpo c V' rpo' h _ _
    unfold postOrder at h
    split at h
    · rename_i hc; cases h; exact stay _ _ _ hc
    · cases h
  | succ n ih =>
    intro V rpo c V' rpo' h hsub hgray
    unfold postOrder at h
    by_cases hc : c ∈ V
    · rw [if_pos hc] at h; cases h; exact stay _ _ _ hc
    rw [if_neg hc] at h
    simp only at h
    cases hpc : poChildren (postOrder children n) (children c) (c :: V, rpo) with
    | none => rw [hpc] at h; cases h
    | some s =>
      obtain ⟨V1, rpo1⟩ := s
      rw [hpc] at h
      simp only [Option.some.injEq, Prod.mk.injEq] at h
      obtain ⟨rfl, rfl⟩ := h
      have hcr : c ∉ rpo := fun h => hc (hsub c h)
      obtain ⟨⟨⟨new, e, v, d, nd, r⟩, t⟩, m⟩ := poChildren_post (children := children)
        (V0 := c :: V) (rpo0 := rpo) (p := c) ih
        (fun g hg hr => by
          rcases List.mem_cons.1 hg with rfl | hg
          · exact .refl
          · exact hgray g hg hr)
        (children c) (c :: V) rpo V1 rpo1 (fun _ h => h) hpc
        (fun x hx => List.mem_cons_of_mem _ (hsub x hx)) (fun g h1 h2 => ⟨h1, h2⟩)
      have hcV : c ∈ V1 := (v c).2 (.inl List.mem_cons_self)
      have hcn : c ∉ new := fun h => d c h List.mem_cons_self
      refine ⟨⟨⟨c :: new, ?_, ?_, ?_, ?_, ?_⟩, ?_⟩, hcV⟩
      · rw [e]; rfl
      · intro x
        rw [v, List.mem_cons, List.mem_cons]
        constructor
        · rintro ((h | h) | h)
          · exact .inr (.inl h)
          · exact .inl h
          · exact .inr (.inr h)
        · rintro (h | h | h)
          · exact .inl (.inr h)
          · exact .inl (.inl h)
          · exact .inr h
      · intro x hx
        rcases List.mem_cons.1 hx with rfl | hx
        · exact hc
        · exact fun hV => d x hx (List.mem_cons_of_mem _ hV)
      · exact List.nodup_cons.2 ⟨hcn, nd⟩
      · intro x hx
        rcases List.mem_cons.1 hx with rfl | hx
        · exact ⟨⟨x, rfl, .refl⟩, m⟩
        · obtain ⟨⟨d', hd', hr⟩, hy⟩ := r x hx
          exact ⟨⟨c, rfl, CompReach.trans (.step .refl hd') hr⟩, hy⟩
      · intro ht
        refine ⟨fun y hy => ?_, t ht⟩
        have hyV := m y hy
        rw [e]
        by_cases hin : y ∈ new ++ rpo
        · exact .inr hin
        · left
          rw [List.mem_append, not_or] at hin
          rcases (v y).1 hyV with h | h
          · rcases List.mem_cons.1 h with rfl | h
            · exact .refl
            · exact hgray y h hin.2
          · exact absurd h hin.1

/-- C64.  Exactly the components reachable from that of the entry are analysed, each once. -/
theorem C64_all_once {children : Nat → List Nat} {n root : Nat} {order : List Nat}
    (h : rpoOrder children n root = some order) :
    order.Nodup ∧ ∀ c, c ∈ order ↔ CompReach children root c := by
  unfold rpoOrder at h
  rw [Option.map_eq_some_iff] at h
  obtain ⟨⟨V, rpo⟩, h, rfl⟩ := h
  obtain ⟨⟨⟨new, e, v, _, nd, r⟩, _⟩, m⟩ := postOrder_post n [] [] root V rpo h
    (fun x hx => by cases hx) (fun g hg => by cases hg)
  simp only [List.append_nil] at e
  subst e
  refine ⟨nd, fun c => ⟨fun hc => ?_, fun hr => ?_⟩⟩
  · obtain ⟨⟨d, rfl, hd⟩, _⟩ := r c hc; exact hd
  · have hV : ∀ x, x ∈ V ↔ x ∈ rpo := fun x => by rw [v]; simp
    show c ∈ rpo
    rw [← hV]
    induction hr with
    | refl => exact m
    | step _ hm ih => exact (r _ ((hV _).1 ih)).2 _ hm

/-- C64.  A component is analysed after the components that lead to it, unless they lie on a
cycle of components. -/
theorem C64_order {children : Nat → List Nat} {n root : Nat} {order : List Nat}
    (h : rpoOrder children n root = some order) {a b : Nat} (ha : a ∈ order)
    (hab : b ∈ children a) (hcyc : ¬ CompReach children b a) :
    ∃ l1 l2 l3, order = l1 ++ a :: l2 ++ b :: l3 := by
  unfold rpoOrder at h
  rw [Option.map_eq_some_iff] at h
  obtain ⟨⟨V, rpo⟩, h, rfl⟩ := h
  have ht : Topo children rpo := (postOrder_post n [] [] root V rpo h
    (fun x hx => by cases hx) (fun g hg => by cases hg)).1.topo trivial
  clear h
  simp only at ha ⊢
  induction rpo with
  | nil => cases ha
  | cons x l ih =>
    obtain ⟨h1, h2⟩ := ht
    rcases List.mem_cons.1 ha with rfl | ha
    · rcases h1 b hab with h | h
      · exact absurd h hcyc
      · obtain ⟨l2, l3, rfl⟩ := List.append_of_mem h
        exact ⟨[], l2, l3, rfl⟩
    · obtain ⟨l1, l2, l3, e⟩ := ih ha h2
      exact ⟨x :: l1, l2, l3, by rw [e]; rfl⟩

def poUnvisited (L V : List Nat) : Nat := (L.filter (fun b => decide (b ∉ V))).length

theorem poChildren_total {L : List Nat} {n : Nat}
    {visit : List Nat × List Nat → Nat → Option (List Nat × List Nat)}
    (hm : ∀ s c s', visit s c = some s' → ∀ x, x ∈ s.1 → x ∈ s'.1)
    (hv : ∀ s c, c ∈ L → poUnvisited L s.1 ≤ n → ∃ s', visit s c = some s') :
    ∀ (cs : List Nat) (s : List Nat × List Nat), (∀ c, c ∈ cs → c ∈ L) → poUnvisited L s.1 ≤ n →
      ∃ s', poChildren visit cs s = some s' := by
  intro cs
  induction cs with
  | nil => intro s _ _; exact ⟨s, rfl⟩
  | cons c cs ih =>
    intro s hcs hn
    obtain ⟨s1, h1⟩ := hv s c (hcs c List.mem_cons_self) hn
    unfold poChildren
    rw [h1]
    refine ih s1 (fun c' h' => hcs c' (List.mem_cons_of_mem _ h')) (Nat.le_trans ?_ hn)
    exact filter_len_le L (fun x hx => by
      simp only [decide_eq_true_eq] at hx ⊢
      exact fun hh => hx (hm _ _ _ h1 x hh))

theorem poChildren_mono {visit : List Nat × List Nat → Nat → Option (List Nat × List Nat)}
    (hm : ∀ s c s', visit s c = some s' → ∀ x, x ∈ s.1 → x ∈ s'.1) :
    ∀ (cs : List Nat) (s s' : List Nat × List Nat), poChildren visit cs s = some s' →
      ∀ x, x ∈ s.1 → x ∈ s'.1 := by
  intro cs
  induction cs with
  | nil => intro s s' h x hx; cases h; exact hx
  | cons c cs ih =>
    intro s s' h x hx
    unfold poChildren at h
    cases h1 : visit s c with
    | none => rw [h1] at h; cases h
    | some s1 => rw [h1] at h; exact ih _ _ h x (hm _ _ _ h1 x hx)

theorem postOrder_mono {children : Nat → List Nat} :
    ∀ (n : Nat) (s : List Nat × List Nat) (c : Nat) (s' : List Nat × List Nat),
      postOrder children n s c = some s' → ∀ x, x ∈ s.1 → x ∈ s'.1
  | 0, s, c, s', h => by
    unfold postOrder at h
    split at h
    · cases h; exact fun _ h => h
    · cases h
  | n + 1, s, c, s', h => by
    intro x hx
    unfold postOrder at h
    split at h
    · cases h; exact hx
    · split at h
      · cases h
      · rename_i V rpo he
        cases h
        exact poChildren_mono (postOrder_mono n) _ _ _ he x (List.mem_cons_of_mem _ hx)

theorem postOrder_total {children : Nat → List Nat} {L : List Nat}
    (hL : ∀ a b, a ∈ L → b ∈ children a → b ∈ L) :
    ∀ (n : Nat) (s : List Nat × List Nat) (c : Nat), c ∈ L → poUnvisited L s.1 ≤ n →
      ∃ s', postOrder children n s c = some s'
  | 0, s, c, hc, hn => by
    unfold postOrder
    by_cases h : c ∈ s.1
    · rw [if_pos h]; exact ⟨_, rfl⟩
    · have : 0 < poUnvisited L s.1 :=
        List.length_pos_of_mem (List.mem_filter.2 ⟨hc, by simpa using h⟩)
      omega
  | n + 1, s, c, hc, hn => by
    unfold postOrder
    by_cases h : c ∈ s.1
    · rw [if_pos h]; exact ⟨_, rfl⟩
    · rw [if_neg h]
      have hlt : poUnvisited L (c :: s.1) < poUnvisited L s.1 := by
        refine filter_len_lt L (fun x hx => ?_) hc ?_ ?_
        · simp only [decide_eq_true_eq] at hx ⊢
          exact fun hh => hx (List.mem_cons_of_mem _ hh)
        · simp
        · simpa using h
      obtain ⟨s1, h1⟩ := poChildren_total (n := n) (postOrder_mono n) (postOrder_total hL n)
        (children c) (c :: s.1, s.2) (fun d hd => hL c d hc hd) (by simp only; omega)
      obtain ⟨V, rpo⟩ := s1
      rw [h1]
      exact ⟨_, rfl⟩

/-- C64.  For the component graph of a function: the order exists, whatever the iteration order
of the sets of children, and the components in it are exactly those with a block that can be
reached from the entry. -/
theorem C64_covers {co : CodeObj} {f : Func} {loops : List (List Blk)}
    (hd : LoopsDisjoint loops) {root : Nat} {st : CompSt}
    (h : cfgAnalysis co f loops = some (root, st)) {children : Nat → List Nat}
    (hc : ∀ c d, d ∈ children c ↔ d ∈ (st.comp c).children) :
    ∃ order, rpoOrder children st.next root = some order ∧
      (∀ b, CfgReach co.targets (co.entry f) b → ∃ c, c ∈ order ∧ b ∈ (st.comp c).blocks) ∧
      ∀ c, c ∈ order → ∃ b, CfgReach co.targets (co.entry f) b ∧ b ∈ (st.comp c).blocks := by
  obtain ⟨hinv, hroot, he, hdone⟩ := cfgAnalysis_post hd h
  have hchild : ∀ a b, b ∈ children a → ∃ t, LinkOk co.targets st a b t := fun a b hb =>
    hinv.children a b ((hc a b).1 hb)
  obtain ⟨s, hs⟩ := postOrder_total (children := children) (L := List.range st.next)
    (fun a b _ hb => by
      obtain ⟨t, _, ht, _⟩ := hchild a b hb
      exact List.mem_range.2 (hinv.lt _ _ ht))
    st.next ([], []) root (List.mem_range.2 (hinv.lt _ _ hroot))
    (by
      unfold poUnvisited
      exact Nat.le_trans (List.length_filter_le _ _) (by simp))
  refine ⟨s.2, by unfold rpoOrder; rw [hs]; rfl, ?_⟩
  have hall := (C64_all_once (children := children) (n := st.next) (root := root) (order := s.2)
    (by unfold rpoOrder; rw [hs]; rfl)).2
  constructor
  · intro b hb
    have : ∀ b, CfgReach co.targets (co.entry f) b →
        ∃ c, CompReach children root c ∧ st.scOf b = some c := by
      intro b hb
      induction hb with
      | refl => exact ⟨root, .refl, hroot⟩
      | @step b e hb hmem hf ih =>
        obtain ⟨c, h1, h2⟩ := ih
        obtain ⟨c', h3, hed⟩ := hdone b ((cfg_visited hd h b).2 hb)
        rw [h2] at h3; injection h3 with h3; subst h3
        obtain ⟨_, d, h4, h5⟩ := (hed e hmem).next hf
        by_cases hne : c = d
        · subst hne; exact ⟨c, h1, h4⟩
        · exact ⟨d, .step h1 ((hc c d).2 (h5 hne).1), h4⟩
    obtain ⟨c, h1, h2⟩ := this b hb
    exact ⟨c, (hall c).2 h1, (hinv.blocks b c).2 h2⟩
  · intro c hc'
    have hr := (hall c).1 hc'
    cases hr with
    | refl => exact ⟨_, .refl, (hinv.blocks _ _).2 hroot⟩
    | step _ hm =>
      obtain ⟨t, _, ht, b, e, hb, _, he', hf, rfl⟩ := hchild _ _ hm
      exact ⟨_, .step (hinv.vis b hb).2 he' hf, (hinv.blocks _ _).2 ht⟩

/-! ## Example -/

/-- `0 → 1`, loop `1 ⇄ 2`, `2 → 3`, `0 → 3`. -/
def cfgSample : CodeObj where
  funcs := [0]
  addr _ := 4096
  entry _ := 0
  blocks _ := [0, 1, 2, 3]
  exitBlocks _ := [3]
  targets b :=
    if b = 0 then [⟨0, 0, 3, .condTaken, false, false⟩, ⟨1, 0, 1, .condNotTaken, false, false⟩]
    else if b = 1 then [⟨2, 1, 2, .fallthrough, false, false⟩]
    else if b = 2 then [⟨3, 2, 1, .condTaken, false, false⟩, ⟨4, 2, 3, .condNotTaken, false, false⟩]
    else [⟨5, 3, 99, .ret, true, true⟩]
  start b := 4096 + 16 * b
  last b := 4096 + 16 * b
  funcsAt _ := [0]
  linkage _ := none

example : ((cfgAnalysis cfgSample 0 [[1, 2]]).map fun r =>
    (r.1, r.2.next, (List.range 3).map fun c => ((r.2.comp c).children, (r.2.comp c).returns))) =
    some (1, 3, [([2], []), ([0, 2], []), ([], [3])]) := by decide +kernel

example : LoopsDisjoint [[1, 2]] := by
  intro i j li lj b hi hj _ _
  have h1 := (List.getElem?_eq_some_iff.1 hi).1
  have h2 := (List.getElem?_eq_some_iff.1 hj).1
  simp at h1 h2; omega

/-- The loop before the block behind it, although the entry leads to that block directly. -/
example : rpoOrder (fun c => if c = 0 then [2] else if c = 1 then [2, 0] else []) 3 1 =
    some [1, 0, 2] := by decide +kernel

theorem cfgSample_closed : ∀ b e, b ∈ cfgSample.blocks 0 → e ∈ cfgSample.targets b → Followed e →
    e.trg ∈ cfgSample.blocks 0 := by
  intro b e hb he hf
  have hb' : b = 0 ∨ b = 1 ∨ b = 2 ∨ b = 3 := by simpa [cfgSample] using hb
  rcases hb' with rfl | rfl | rfl | rfl
  · have : e = ⟨0, 0, 3, .condTaken, false, false⟩ ∨ e = ⟨1, 0, 1, .condNotTaken, false, false⟩ := by
      simpa [cfgSample] using he
    rcases this with rfl | rfl <;> decide
  · have : e = ⟨2, 1, 2, .fallthrough, false, false⟩ := by simpa [cfgSample] using he
    rw [this]; decide
  · have : e = ⟨3, 2, 1, .condTaken, false, false⟩ ∨
        e = ⟨4, 2, 3, .condNotTaken, false, false⟩ := by simpa [cfgSample] using he
    rcases this with rfl | rfl <;> decide
  · have : e = ⟨5, 3, 99, .ret, true, true⟩ := by simpa [cfgSample] using he
    rw [this] at hf; exact absurd rfl hf.2.2.1

/-- C63, negation for overlapping loops: the shared block is in the components of both. -/
theorem C63_refuted : ∃ r st, cfgAnalysis cfgSample 0 [[0, 1], [1, 2]] = some (r, st) ∧
    1 ∈ (st.comp 0).blocks ∧ 1 ∈ (st.comp 1).blocks := by
  have h := C63_total cfgSample 0 [[0, 1], [1, 2]] (by decide) cfgSample_closed
  obtain ⟨⟨r, st⟩, h⟩ := h
  have h2 : ((cfgAnalysis cfgSample 0 [[0, 1], [1, 2]]).map fun r =>
      decide (1 ∈ (r.2.comp 0).blocks ∧ 1 ∈ (r.2.comp 1).blocks)) = some true := by decide +kernel
  rw [h] at h2
  simp only [Option.map_some, Option.some.injEq, decide_eq_true_eq] at h2
  exact ⟨r, st, h, h2⟩

end Verif
