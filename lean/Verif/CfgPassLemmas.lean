import Verif.CfgPass

/-!
Invariants of the construction of the component graph.
-/

namespace Verif

/-- Edges which `VisitBlock` follows. -/
def Followed (e : Edge) : Prop :=
  e.type ≠ .catch ∧ e.type ≠ .call ∧ e.type ≠ .ret ∧ e.interproc = false

/-- Reachable along followed edges. -/
inductive CfgReach (targets : Blk → List Edge) (r : Blk) : Blk → Prop
  | refl : CfgReach targets r r
  | step {b e} : CfgReach targets r b → e ∈ targets b → Followed e → CfgReach targets r e.trg

/-- A recorded connection from component `c` to block `t` of component `d`. -/
def LinkOk (targets : Blk → List Edge) (st : CompSt) (c d : Nat) (t : Blk) : Prop :=
  c ≠ d ∧ st.scOf t = some d ∧ ∃ b e, b ∈ st.visited ∧ st.scOf b = some c ∧ e ∈ targets b ∧
    Followed e ∧ e.trg = t

/-- The invariant of the construction of components. -/
structure CompInv (targets : Blk → List Edge) (r : Blk) (loops : List (List Blk)) (st : CompSt) :
    Prop where
  lt : ∀ b c, st.scOf b = some c → c < st.next
  fresh : ∀ c, st.next ≤ c → st.comp c = {}
  blocks : ∀ b c, b ∈ (st.comp c).blocks ↔ st.scOf b = some c
  vis : ∀ b, b ∈ st.visited → (∃ c, st.scOf b = some c) ∧ CfgReach targets r b
  children : ∀ c d, d ∈ (st.comp c).children → ∃ t, LinkOk targets st c d t
  outgoing : ∀ c d t, (t, d) ∈ (st.comp c).outgoing → LinkOk targets st c d t
  tgts : ∀ c d t, (d, t) ∈ (st.comp c).targets → LinkOk targets st c d t
  returns : ∀ c b, b ∈ (st.comp c).returns →
    b ∈ st.visited ∧ st.scOf b = some c ∧ ∃ e, e ∈ targets b ∧ e.type = .ret
  nloops : loops.length ≤ st.next
  loopBlocks : ∀ c l, loops[c]? = some l → ∀ b, b ∈ (st.comp c).blocks ↔ b ∈ l
  single : ∀ c, loops.length ≤ c → ∀ b b', b ∈ (st.comp c).blocks → b' ∈ (st.comp c).blocks → b = b'
  /-- outside loops a component is made when its block is visited -/
  made : ∀ b c, st.scOf b = some c → loops.length ≤ c → b ∈ st.visited

/-- Nothing recorded is lost. -/
structure CompExt (a b : CompSt) : Prop where
  vis : ∀ x, x ∈ a.visited → x ∈ b.visited
  sc : ∀ x c, a.scOf x = some c → b.scOf x = some c
  children : ∀ c x, x ∈ (a.comp c).children → x ∈ (b.comp c).children
  outgoing : ∀ c x, x ∈ (a.comp c).outgoing → x ∈ (b.comp c).outgoing
  tgts : ∀ c x, x ∈ (a.comp c).targets → x ∈ (b.comp c).targets
  returns : ∀ c x, x ∈ (a.comp c).returns → x ∈ (b.comp c).returns

theorem CompExt.refl (a : CompSt) : CompExt a a :=
  ⟨fun _ h => h, fun _ _ h => h, fun _ _ h => h, fun _ _ h => h, fun _ _ h => h, fun _ _ h => h⟩

theorem CompExt.trans {a b c : CompSt} (h1 : CompExt a b) (h2 : CompExt b c) : CompExt a c :=
  ⟨fun x h => h2.vis x (h1.vis x h), fun x d h => h2.sc x d (h1.sc x d h),
   fun d x h => h2.children d x (h1.children d x h), fun d x h => h2.outgoing d x (h1.outgoing d x h),
   fun d x h => h2.tgts d x (h1.tgts d x h), fun d x h => h2.returns d x (h1.returns d x h)⟩

theorem LinkOk.mono {targets : Blk → List Edge} {a b : CompSt} (h : CompExt a b) {c d : Nat}
    {t : Blk} (hl : LinkOk targets a c d t) : LinkOk targets b c d t := by
  obtain ⟨h1, h2, x, e, h3, h4, h5⟩ := hl
  exact ⟨h1, h.sc _ _ h2, x, e, h.vis _ h3, h.sc _ _ h4, h5⟩

/-- What is recorded for an edge of block `b` of component `c`. -/
structure CfgEdgeDone (st : CompSt) (c : Nat) (b : Blk) (e : Edge) : Prop where
  ret : e.type = .ret → b ∈ (st.comp c).returns
  next : Followed e → e.trg ∈ st.visited ∧ ∃ d, st.scOf e.trg = some d ∧ (c ≠ d →
    d ∈ (st.comp c).children ∧ (e.trg, d) ∈ (st.comp c).outgoing ∧
    (d, e.trg) ∈ (st.comp c).targets)

theorem CfgEdgeDone.mono {a b : CompSt} (h : CompExt a b) {c : Nat} {x : Blk} {e : Edge}
    (hd : CfgEdgeDone a c x e) : CfgEdgeDone b c x e := by
  refine ⟨fun hr => h.returns _ _ (hd.ret hr), fun hf => ?_⟩
  obtain ⟨h1, d, h2, h3⟩ := hd.next hf
  refine ⟨h.vis _ h1, d, h.sc _ _ h2, fun hc => ?_⟩
  obtain ⟨h4, h5, h6⟩ := h3 hc
  exact ⟨h.children _ _ h4, h.outgoing _ _ h5, h.tgts _ _ h6⟩

/-- The block has its component, and its edges have been handled. -/
def CfgBlockDone (targets : Blk → List Edge) (st : CompSt) (b : Blk) : Prop :=
  ∃ c, st.scOf b = some c ∧ ∀ e, e ∈ targets b → CfgEdgeDone st c b e

theorem CfgBlockDone.mono {targets : Blk → List Edge} {a b : CompSt} (h : CompExt a b) {x : Blk}
    (hd : CfgBlockDone targets a x) : CfgBlockDone targets b x := by
  obtain ⟨c, h1, h2⟩ := hd
  exact ⟨c, h.sc _ _ h1, fun e he => (h2 e he).mono h⟩

/-! ## Steps -/

theorem compExt_enter {st : CompSt} {b : Blk} {sc : Nat}
    (hb : st.scOf b = none ∨ st.scOf b = some sc) : CompExt st (enterBlock st b sc) := by
  have key : ∀ c, ((enterBlock st b sc).comp c).children = (st.comp c).children ∧
      ((enterBlock st b sc).comp c).outgoing = (st.comp c).outgoing ∧
      ((enterBlock st b sc).comp c).targets = (st.comp c).targets ∧
      ((enterBlock st b sc).comp c).returns = (st.comp c).returns := by
    intro c
    simp only [enterBlock, CompSt.upd]
    split <;> exact ⟨rfl, rfl, rfl, rfl⟩
  refine ⟨fun x h => List.mem_cons_of_mem _ h, fun x c h => ?_, fun c x h => ?_, fun c x h => ?_,
    fun c x h => ?_, fun c x h => ?_⟩
  · simp only [enterBlock, CompSt.upd]
    split
    · rename_i e; subst e
      rcases hb with hb | hb
      · rw [hb] at h; cases h
      · rw [← hb, h]
    · exact h
  · rw [(key c).1]; exact h
  · rw [(key c).2.1]; exact h
  · rw [(key c).2.2.1]; exact h
  · rw [(key c).2.2.2]; exact h

theorem compExt_upd {st : CompSt} (c : Nat) (g : Comp → Comp)
    (h1 : ∀ x k, k ∈ x.children → k ∈ (g x).children)
    (h2 : ∀ x k, k ∈ x.outgoing → k ∈ (g x).outgoing)
    (h3 : ∀ x k, k ∈ x.targets → k ∈ (g x).targets)
    (h4 : ∀ x k, k ∈ x.returns → k ∈ (g x).returns) : CompExt st (st.upd c g) := by
  refine ⟨fun _ h => h, fun _ _ h => h, fun d x h => ?_, fun d x h => ?_, fun d x h => ?_,
    fun d x h => ?_⟩ <;> simp only [CompSt.upd] <;> split
  · exact h1 _ _ h
  · exact h
  · exact h2 _ _ h
  · exact h
  · exact h3 _ _ h
  · exact h
  · exact h4 _ _ h
  · exact h

theorem compExt_ret (st : CompSt) (sc : Nat) (b : Blk) :
    CompExt st (st.upd sc (fun c => { c with returns := b :: c.returns })) :=
  compExt_upd sc _ (fun _ _ h => h) (fun _ _ h => h) (fun _ _ h => h)
    (fun _ _ h => List.mem_cons_of_mem _ h)

theorem compExt_link (st : CompSt) (sc new : Nat) (t : Blk) :
    CompExt st (linkComp st sc new t) := by
  unfold linkComp
  split
  · exact compExt_upd sc _ (fun _ _ h => List.mem_cons_of_mem _ h)
      (fun _ _ h => List.mem_cons_of_mem _ h) (fun _ _ h => List.mem_cons_of_mem _ h)
      (fun _ _ h => h)
  · exact .refl _

theorem compExt_target (st : CompSt) (t : Blk) : CompExt st (targetComp st t).2 := by
  unfold targetComp
  split
  · exact .refl _
  · exact ⟨fun _ h => h, fun _ _ h => h, fun _ _ h => h, fun _ _ h => h, fun _ _ h => h,
      fun _ _ h => h⟩

theorem compInv_ret {targets : Blk → List Edge} {r : Blk} {loops : List (List Blk)} {st : CompSt}
    (h : CompInv targets r loops st) {sc : Nat} {b : Blk} (hb : b ∈ st.visited)
    (hs : st.scOf b = some sc) {e : Edge} (he : e ∈ targets b) (hr : e.type = .ret) :
    CompInv targets r loops (st.upd sc (fun c => { c with returns := b :: c.returns })) := by
  have key : ∀ c, ((st.upd sc (fun c => { c with returns := b :: c.returns })).comp c).blocks =
        (st.comp c).blocks ∧
      ((st.upd sc (fun c => { c with returns := b :: c.returns })).comp c).children =
        (st.comp c).children ∧
      ((st.upd sc (fun c => { c with returns := b :: c.returns })).comp c).outgoing =
        (st.comp c).outgoing ∧
      ((st.upd sc (fun c => { c with returns := b :: c.returns })).comp c).targets =
        (st.comp c).targets := by
    intro c
    simp only [CompSt.upd]
    split <;> exact ⟨rfl, rfl, rfl, rfl⟩
  refine ⟨h.lt, ?_, ?_, h.vis, ?_, ?_, ?_, ?_, h.nloops, ?_, ?_, h.made⟩
  · intro c hc
    simp only [CompSt.upd]
    rw [if_neg]
    · exact h.fresh c hc
    · intro e; subst e; have := h.lt _ _ hs; change st.next ≤ c at hc; omega
  · intro x c; rw [(key c).1]; exact h.blocks x c
  · intro c d hd; rw [(key c).2.1] at hd; exact h.children c d hd
  · intro c d t hd; rw [(key c).2.2.1] at hd; exact h.outgoing c d t hd
  · intro c d t hd; rw [(key c).2.2.2] at hd; exact h.tgts c d t hd
  · intro c x hx
    simp only [CompSt.upd] at hx
    split at hx
    · rename_i e'; subst e'
      rcases List.mem_cons.1 hx with rfl | hx
      · exact ⟨hb, hs, e, he, hr⟩
      · exact h.returns _ x hx
    · exact h.returns _ x hx
  · intro c l hl x; rw [(key c).1]; exact h.loopBlocks c l hl x
  · intro c hc x y; rw [(key c).1]; exact h.single c hc x y

/-- Recording a connection to a block whose component is known. -/
theorem compInv_link {targets : Blk → List Edge} {r : Blk} {loops : List (List Blk)} {st : CompSt}
    (h : CompInv targets r loops st) {sc : Nat} {b : Blk} (hb : b ∈ st.visited)
    (hs : st.scOf b = some sc) {e : Edge} (he : e ∈ targets b) (hf : Followed e) {d : Nat}
    (hd : st.scOf e.trg = some d) : CompInv targets r loops (linkComp st sc d e.trg) := by
  unfold linkComp
  by_cases hne : sc ≠ d
  · rw [if_pos hne]
    have key : ∀ c, (((st.upd sc (fun c => { c with
        children := d :: c.children, targets := (d, e.trg) :: c.targets,
        outgoing := (e.trg, d) :: c.outgoing })).comp c).blocks = (st.comp c).blocks) ∧
        ((st.upd sc (fun c => { c with
        children := d :: c.children, targets := (d, e.trg) :: c.targets,
        outgoing := (e.trg, d) :: c.outgoing })).comp c).returns = (st.comp c).returns := by
      intro c; simp only [CompSt.upd]; split <;> exact ⟨rfl, rfl⟩
    have hl : LinkOk targets st sc d e.trg := ⟨hne, hd, b, e, hb, hs, he, hf, rfl⟩
    refine ⟨h.lt, ?_, ?_, h.vis, ?_, ?_, ?_, ?_, h.nloops, ?_, ?_, h.made⟩
    · intro c hc
      simp only [CompSt.upd]
      rw [if_neg]
      · exact h.fresh c hc
      · intro e; subst e; have := h.lt _ _ hs; change st.next ≤ c at hc; omega
    · intro x c; rw [(key c).1]; exact h.blocks x c
    · intro c k hk
      simp only [CompSt.upd] at hk
      split at hk
      · rename_i e'; subst e'
        rcases List.mem_cons.1 hk with rfl | hk
        · exact ⟨_, hl⟩
        · exact h.children _ k hk
      · exact h.children _ k hk
    · intro c k t hk
      simp only [CompSt.upd] at hk
      split at hk
      · rename_i e'; subst e'
        rcases List.mem_cons.1 hk with e' | hk
        · injection e' with e1 e2; subst e1; subst e2; exact hl
        · exact h.outgoing _ k t hk
      · exact h.outgoing _ k t hk
    · intro c k t hk
      simp only [CompSt.upd] at hk
      split at hk
      · rename_i e'; subst e'
        rcases List.mem_cons.1 hk with e' | hk
        · injection e' with e1 e2; subst e1; subst e2; exact hl
        · exact h.tgts _ k t hk
      · exact h.tgts _ k t hk
    · intro c x hx; rw [(key c).2] at hx; exact h.returns c x hx
    · intro c l hl x; rw [(key c).1]; exact h.loopBlocks c l hl x
    · intro c hc x y; rw [(key c).1]; exact h.single c hc x y
  · rw [if_neg hne]; exact h

/-- Entering a block whose component is known. -/
theorem compInv_enter {targets : Blk → List Edge} {r : Blk} {loops : List (List Blk)} {st : CompSt}
    (h : CompInv targets r loops st) {t : Blk} {d : Nat} (hd : st.scOf t = some d)
    (hr : CfgReach targets r t) : CompInv targets r loops (enterBlock st t d) := by
  have hx := compExt_enter (st := st) (b := t) (sc := d) (.inr hd)
  have hsc : ∀ x c, (enterBlock st t d).scOf x = some c ↔ st.scOf x = some c := by
    intro x c
    simp only [enterBlock, CompSt.upd]
    split
    · rename_i e; subst e; rw [hd]
    · exact Iff.rfl
  have hcomp : ∀ c, ((enterBlock st t d).comp c).children = (st.comp c).children ∧
      ((enterBlock st t d).comp c).outgoing = (st.comp c).outgoing ∧
      ((enterBlock st t d).comp c).targets = (st.comp c).targets ∧
      ((enterBlock st t d).comp c).returns = (st.comp c).returns ∧
      ∀ x, x ∈ ((enterBlock st t d).comp c).blocks ↔ x ∈ (st.comp c).blocks := by
    intro c
    simp only [enterBlock, CompSt.upd]
    split
    · rename_i e; subst e
      refine ⟨rfl, rfl, rfl, rfl, fun x => ?_⟩
      rw [List.mem_cons]
      exact ⟨fun h' => h'.elim (fun e => by rw [e]; exact (h.blocks t c).2 hd) id, .inr⟩
    · exact ⟨rfl, rfl, rfl, rfl, fun x => Iff.rfl⟩
  refine ⟨?_, ?_, ?_, ?_, ?_, ?_, ?_, ?_, h.nloops, ?_, ?_, ?_⟩
  · intro b c hb; exact h.lt b c ((hsc b c).1 hb)
  · intro c hc
    have hc' : st.next ≤ c := hc
    simp only [enterBlock, CompSt.upd]
    rw [if_neg]
    · exact h.fresh c hc'
    · intro e; subst e; have := h.lt _ _ hd; omega
  · intro x c; rw [(hcomp c).2.2.2.2, hsc]; exact h.blocks x c
  · intro x hx'
    have : x = t ∨ x ∈ st.visited := List.mem_cons.1 hx'
    rcases this with rfl | h1
    · exact ⟨⟨d, (hsc _ _).2 hd⟩, hr⟩
    · obtain ⟨⟨c, h2⟩, h3⟩ := h.vis x h1
      exact ⟨⟨c, (hsc _ _).2 h2⟩, h3⟩
  · intro c k hk
    rw [(hcomp c).1] at hk
    obtain ⟨u, hu⟩ := h.children c k hk
    exact ⟨u, hu.mono hx⟩
  · intro c k u hk; rw [(hcomp c).2.1] at hk; exact (h.outgoing c k u hk).mono hx
  · intro c k u hk; rw [(hcomp c).2.2.1] at hk; exact (h.tgts c k u hk).mono hx
  · intro c x hx'
    rw [(hcomp c).2.2.2.1] at hx'
    obtain ⟨h1, h2, h3⟩ := h.returns c x hx'
    exact ⟨hx.vis _ h1, hx.sc _ _ h2, h3⟩
  · intro c l hl x; rw [(hcomp c).2.2.2.2]; exact h.loopBlocks c l hl x
  · intro c hc x y; rw [(hcomp c).2.2.2.2, (hcomp c).2.2.2.2]; exact h.single c hc x y
  · intro x c h1 h2; exact hx.vis _ (h.made x c ((hsc _ _).1 h1) h2)

/-- Entering a block for which a component is allocated. -/
theorem compInv_new {targets : Blk → List Edge} {r : Blk} {loops : List (List Blk)} {st : CompSt}
    (h : CompInv targets r loops st) {t : Blk} (hd : st.scOf t = none)
    (hr : CfgReach targets r t) :
    CompInv targets r loops (enterBlock { st with next := st.next + 1 } t st.next) := by
  have hx : CompExt st (enterBlock { st with next := st.next + 1 } t st.next) :=
    CompExt.trans (b := { st with next := st.next + 1 }) ⟨fun _ h => h, fun _ _ h => h, fun _ _ h => h, fun _ _ h => h, fun _ _ h => h,
      fun _ _ h => h⟩ (compExt_enter (st := { st with next := st.next + 1 }) (.inl hd))
  have hsc : ∀ x c, (enterBlock { st with next := st.next + 1 } t st.next).scOf x = some c ↔
      (x = t ∧ c = st.next) ∨ st.scOf x = some c := by
    intro x c
    simp only [enterBlock, CompSt.upd]
    split
    · rename_i e; subst e
      rw [hd]
      constructor
      · intro h'; injection h' with h'; exact .inl ⟨rfl, h'.symm⟩
      · rintro (⟨_, rfl⟩ | h')
        · rfl
        · cases h'
    · rename_i e
      exact ⟨.inr, fun h' => h'.elim (fun h'' => absurd h''.1 e) id⟩
  have hcomp : ∀ c, ((enterBlock { st with next := st.next + 1 } t st.next).comp c).children =
        (st.comp c).children ∧
      ((enterBlock { st with next := st.next + 1 } t st.next).comp c).outgoing =
        (st.comp c).outgoing ∧
      ((enterBlock { st with next := st.next + 1 } t st.next).comp c).targets =
        (st.comp c).targets ∧
      ((enterBlock { st with next := st.next + 1 } t st.next).comp c).returns =
        (st.comp c).returns ∧
      ∀ x, x ∈ ((enterBlock { st with next := st.next + 1 } t st.next).comp c).blocks ↔
        (x = t ∧ c = st.next) ∨ x ∈ (st.comp c).blocks := by
    intro c
    simp only [enterBlock, CompSt.upd]
    split
    · rename_i e; subst e
      refine ⟨rfl, rfl, rfl, rfl, fun x => ?_⟩
      rw [List.mem_cons]; simp
    · rename_i e
      exact ⟨rfl, rfl, rfl, rfl, fun x => ⟨.inr, fun h' => h'.elim (fun h'' => absurd h''.2 e) id⟩⟩
  have hempty : st.comp st.next = {} := h.fresh _ (Nat.le_refl _)
  have hnl := h.nloops
  refine ⟨?_, ?_, ?_, ?_, ?_, ?_, ?_, ?_, Nat.le_succ_of_le hnl, ?_, ?_, ?_⟩
  · intro b c hb
    show c < st.next + 1
    rcases (hsc b c).1 hb with ⟨_, rfl⟩ | hb
    · omega
    · have := h.lt b c hb; omega
  · intro c hc
    have hc' : st.next + 1 ≤ c := hc
    simp only [enterBlock, CompSt.upd]
    rw [if_neg (by omega)]
    exact h.fresh c (by omega)
  · intro x c; rw [(hcomp c).2.2.2.2, hsc, h.blocks]
  · intro x hx'
    have : x = t ∨ x ∈ st.visited := List.mem_cons.1 hx'
    rcases this with rfl | h1
    · exact ⟨⟨st.next, (hsc _ _).2 (.inl ⟨rfl, rfl⟩)⟩, hr⟩
    · obtain ⟨⟨c, h2⟩, h3⟩ := h.vis x h1
      exact ⟨⟨c, (hsc _ _).2 (.inr h2)⟩, h3⟩
  · intro c k hk
    rw [(hcomp c).1] at hk
    obtain ⟨u, hu⟩ := h.children c k hk
    exact ⟨u, hu.mono hx⟩
  · intro c k u hk; rw [(hcomp c).2.1] at hk; exact (h.outgoing c k u hk).mono hx
  · intro c k u hk; rw [(hcomp c).2.2.1] at hk; exact (h.tgts c k u hk).mono hx
  · intro c x hx'
    rw [(hcomp c).2.2.2.1] at hx'
    obtain ⟨h1, h2, h3⟩ := h.returns c x hx'
    exact ⟨hx.vis _ h1, hx.sc _ _ h2, h3⟩
  · intro c l hl x
    rw [(hcomp c).2.2.2.2]
    have hc : c < loops.length := by
      rcases Nat.lt_or_ge c loops.length with h' | h'
      · exact h'
      · rw [List.getElem?_eq_none h'] at hl; cases hl
    rw [h.loopBlocks c l hl]
    exact ⟨fun h' => h'.elim (fun h'' => by omega) id, .inr⟩
  · intro c hc x y h1 h2
    rw [(hcomp c).2.2.2.2] at h1 h2
    have hno : c = st.next → ∀ z, z ∉ (st.comp c).blocks := by
      intro e z hz; subst e; rw [hempty] at hz; cases hz
    rcases h1 with ⟨rfl, e1⟩ | h1
    · rcases h2 with ⟨rfl, _⟩ | h2
      · rfl
      · exact absurd h2 (hno e1 _)
    · rcases h2 with ⟨rfl, e2⟩ | h2
      · exact absurd h1 (hno e2 _)
      · exact h.single c hc x y h1 h2
  · intro x c h1 h2
    rcases (hsc x c).1 h1 with ⟨rfl, _⟩ | h1
    · exact List.mem_cons_self
    · exact hx.vis _ (h.made x c h1 h2)

/-- Linking and entering can be exchanged. -/
theorem enter_link (st : CompSt) (sc d : Nat) (t : Blk) :
    enterBlock (linkComp st sc d t) t d = linkComp (enterBlock st t d) sc d t := by
  unfold linkComp
  by_cases h : sc ≠ d
  · rw [if_pos h, if_pos h]
    simp only [enterBlock, CompSt.upd]
    congr 1
    funext c
    by_cases e1 : c = sc
    · subst e1
      simp only [if_true]; rw [if_neg h, if_neg h]
    · simp only [if_neg e1]
  · rw [if_neg h, if_neg h]

/-! ## The traversal -/

/-- Effect of a part of the traversal. -/
structure VisitPost (targets : Blk → List Edge) (r : Blk) (loops : List (List Blk))
    (a b : CompSt) : Prop where
  inv : CompInv targets r loops b
  ext : CompExt a b
  done : ∀ x, x ∈ b.visited → x ∉ a.visited → CfgBlockDone targets b x

theorem link_scOf (st : CompSt) (sc d : Nat) (t : Blk) : (linkComp st sc d t).scOf = st.scOf := by
  unfold linkComp; split <;> rfl

theorem link_visited (st : CompSt) (sc d : Nat) (t : Blk) :
    (linkComp st sc d t).visited = st.visited := by
  unfold linkComp; split <;> rfl

theorem link_has {st : CompSt} {sc d : Nat} {t : Blk} (h : sc ≠ d) :
    d ∈ ((linkComp st sc d t).comp sc).children ∧
    (t, d) ∈ ((linkComp st sc d t).comp sc).outgoing ∧
    (d, t) ∈ ((linkComp st sc d t).comp sc).targets := by
  unfold linkComp
  rw [if_pos h]
  simp only [CompSt.upd, if_true]
  exact ⟨List.mem_cons_self, List.mem_cons_self, List.mem_cons_self⟩

theorem cfgEdges_post {targets : Blk → List Edge} {r : Blk} {loops : List (List Blk)}
    {visit : CompSt → Blk → Nat → Option CompSt}
    (hv : ∀ st t d st', visit st t d = some st' → CompInv targets r loops (enterBlock st t d) →
      VisitPost targets r loops (enterBlock st t d) st' ∧ CfgBlockDone targets st' t)
    {b : Blk} {sc : Nat} :
    ∀ (es : List Edge) (st st' : CompSt), (∀ e, e ∈ es → e ∈ targets b) →
      cfgEdges visit b sc es st = some st' → CompInv targets r loops st → b ∈ st.visited →
      st.scOf b = some sc →
      VisitPost targets r loops st st' ∧ ∀ e, e ∈ es → CfgEdgeDone st' sc b e := by
  intro es
  induction es with
  | nil =>
    intro st st' _ h hinv _ _
    cases h
    exact ⟨⟨hinv, .refl _, fun x h1 h2 => absurd h1 h2⟩, fun e he => by cases he⟩
  | cons e es ih =>
    intro st st' hes h hinv hb hsc
    have he := hes e List.mem_cons_self
    have hes' : ∀ e, e ∈ es → e ∈ targets b := fun e' h' => hes e' (List.mem_cons_of_mem _ h')
    unfold cfgEdges at h
    -- an edge which is not followed and leaves the state alone
    have skip : ¬ Followed e → e.type ≠ .ret → cfgEdges visit b sc es st = some st' →
        VisitPost targets r loops st st' ∧ ∀ e', e' ∈ e :: es → CfgEdgeDone st' sc b e' := by
      intro hnf hnr h
      obtain ⟨h1, h2⟩ := ih st st' hes' h hinv hb hsc
      refine ⟨h1, fun e' he' => ?_⟩
      rcases List.mem_cons.1 he' with rfl | he'
      · exact ⟨fun h => absurd h hnr, fun h => absurd h hnf⟩
      · exact h2 e' he'
    by_cases c1 : e.type = .catch
    · rw [if_pos c1] at h
      exact skip (fun hf => hf.1 c1) (by rw [c1]; decide) h
    rw [if_neg c1] at h
    by_cases c2 : e.type = .call
    · rw [if_pos c2] at h
      exact skip (fun hf => hf.2.1 c2) (by rw [c2]; decide) h
    rw [if_neg c2] at h
    by_cases c3 : e.type = .ret
    · rw [if_pos c3] at h
      have hx := compExt_ret st sc b
      obtain ⟨h1, h2⟩ := ih _ st' hes' h (compInv_ret hinv hb hsc he c3) hb hsc
      refine ⟨⟨h1.inv, hx.trans h1.ext, h1.done⟩, fun e' he' => ?_⟩
      rcases List.mem_cons.1 he' with rfl | he'
      · refine ⟨fun _ => h1.ext.returns _ _ ?_, fun hf => absurd c3 hf.2.2.1⟩
        simp only [CompSt.upd, if_true]; exact List.mem_cons_self
      · exact h2 e' he'
    rw [if_neg c3] at h
    by_cases c4 : e.interproc = true
    · rw [if_pos c4] at h
      exact skip (fun hf => by rw [hf.2.2.2] at c4; cases c4) c3 h
    rw [if_neg c4] at h
    have hf : Followed e := ⟨c1, c2, c3, by simpa using c4⟩
    have hreach : CfgReach targets r e.trg := .step (hinv.vis b hb).2 he hf
    have hvmem : ∀ {d}, (e.trg ∈ (linkComp (targetComp st e.trg).2 sc d e.trg).visited) ↔
        e.trg ∈ st.visited := by
      intro d
      rw [link_visited]
      unfold targetComp
      split <;> exact Iff.rfl
    by_cases c5 : e.trg ∈ st.visited
    · rw [if_pos (hvmem.2 c5)] at h
      obtain ⟨⟨d, hd⟩, _⟩ := hinv.vis _ c5
      have hp : targetComp st e.trg = (d, st) := by unfold targetComp; rw [hd]
      rw [hp] at h
      have hx := compExt_link st sc d e.trg
      obtain ⟨h1, h2⟩ := ih _ st' hes' h (compInv_link hinv hb hsc he hf hd) (hx.vis _ hb)
        (hx.sc _ _ hsc)
      refine ⟨⟨h1.inv, hx.trans h1.ext, fun x hx1 hx2 => h1.done x hx1 ?_⟩, fun e' he' => ?_⟩
      · rw [link_visited]; exact hx2
      · rcases List.mem_cons.1 he' with rfl | he'
        · refine CfgEdgeDone.mono h1.ext ⟨fun h => absurd h c3, fun _ => ⟨hx.vis _ c5, d, hx.sc _ _ hd,
            link_has⟩⟩
        · exact h2 e' he'
    · rw [if_neg (fun h' => c5 (hvmem.1 h'))] at h
      -- the state in which the target has been entered
      have mid : CompInv targets r loops
          (enterBlock (targetComp st e.trg).2 e.trg (targetComp st e.trg).1) ∧
          CompExt st (enterBlock (targetComp st e.trg).2 e.trg (targetComp st e.trg).1) := by
        cases hd : st.scOf e.trg with
        | some d =>
          have hp : targetComp st e.trg = (d, st) := by unfold targetComp; rw [hd]
          rw [hp]
          exact ⟨compInv_enter hinv hd hreach, compExt_enter (.inr hd)⟩
        | none =>
          have hp : targetComp st e.trg = (st.next, { st with next := st.next + 1 }) := by
            unfold targetComp; rw [hd]
          rw [hp]
          refine ⟨compInv_new hinv hd hreach, ?_⟩
          have := compExt_target st e.trg
          rw [hp] at this
          exact this.trans (compExt_enter (.inl hd))
      have hs0 : (targetComp st e.trg).2.visited = st.visited := by
        unfold targetComp; split <;> rfl
      generalize targetComp st e.trg = p at h mid hs0
      obtain ⟨d, s0⟩ := p
      simp only at h mid hs0
      obtain ⟨hm1, hm2⟩ := mid
      have hdsc : (enterBlock s0 e.trg d).scOf e.trg = some d := by
        simp [enterBlock, CompSt.upd]
      have hdv : e.trg ∈ (enterBlock s0 e.trg d).visited := List.mem_cons_self
      have hm3 : CompInv targets r loops (enterBlock (linkComp s0 sc d e.trg) e.trg d) := by
        rw [enter_link]
        exact compInv_link hm1 (hm2.vis _ hb) (hm2.sc _ _ hsc) he hf hdsc
      have hx2 : CompExt st (enterBlock (linkComp s0 sc d e.trg) e.trg d) := by
        rw [enter_link]; exact hm2.trans (compExt_link _ _ _ _)
      have hlink : sc ≠ d →
          d ∈ ((enterBlock (linkComp s0 sc d e.trg) e.trg d).comp sc).children ∧
          (e.trg, d) ∈ ((enterBlock (linkComp s0 sc d e.trg) e.trg d).comp sc).outgoing ∧
          (d, e.trg) ∈ ((enterBlock (linkComp s0 sc d e.trg) e.trg d).comp sc).targets := by
        rw [enter_link]; exact link_has
      have hsc3 : (enterBlock (linkComp s0 sc d e.trg) e.trg d).scOf e.trg = some d := by
        simp [enterBlock, CompSt.upd]
      cases hvis : visit (linkComp s0 sc d e.trg) e.trg d with
      | none => rw [hvis] at h; cases h
      | some s2 =>
        rw [hvis] at h
        simp only at h
        obtain ⟨hp, hdone⟩ := hv _ _ _ _ hvis hm3
        have hx3 := hx2.trans hp.ext
        obtain ⟨h1, h2⟩ := ih s2 st' hes' h hp.inv (hx3.vis _ hb) (hx3.sc _ _ hsc)
        refine ⟨⟨h1.inv, hx3.trans h1.ext, fun x hx1 hx2' => ?_⟩, fun e' he' => ?_⟩
        · by_cases hs2 : x ∈ s2.visited
          · by_cases hxt : x = e.trg
            · rw [hxt]; exact hdone.mono h1.ext
            · refine (hp.done x hs2 ?_).mono h1.ext
              intro hin
              have : x = e.trg ∨ x ∈ (linkComp s0 sc d e.trg).visited := List.mem_cons.1 hin
              rcases this with h' | h'
              · exact hxt h'
              · rw [link_visited, hs0] at h'; exact hx2' h'
          · exact h1.done x hx1 hs2
        · rcases List.mem_cons.1 he' with rfl | he'
          · refine CfgEdgeDone.mono (hp.ext.trans h1.ext) ⟨fun h => absurd h c3, fun _ =>
              ⟨List.mem_cons_self, d, hsc3, hlink⟩⟩
          · exact h2 e' he'

theorem enter_vis (st : CompSt) (b : Blk) (sc : Nat) : b ∈ (enterBlock st b sc).visited :=
  List.mem_cons_self

theorem enter_sc (st : CompSt) (b : Blk) (sc : Nat) : (enterBlock st b sc).scOf b = some sc := by
  simp [enterBlock, CompSt.upd]

theorem cfgVisit_post {targets : Blk → List Edge} {r : Blk} {loops : List (List Blk)} :
    ∀ (n : Nat) (st : CompSt) (t : Blk) (d : Nat) (st' : CompSt),
      cfgVisit targets n st t d = some st' → CompInv targets r loops (enterBlock st t d) →
      VisitPost targets r loops (enterBlock st t d) st' ∧ CfgBlockDone targets st' t
  | 0, _, _, _, _, h, _ => by cases h
  | n + 1, st, t, d, st', h, hinv => by
    unfold cfgVisit at h
    obtain ⟨h1, h2⟩ := cfgEdges_post (cfgVisit_post n) (targets t) _ st' (fun _ h => h) h hinv
      (enter_vis st t d) (enter_sc st t d)
    exact ⟨h1, d, h1.ext.sc _ _ (enter_sc st t d), h2⟩

/-! ## It ends -/

/-- Blocks not visited yet. -/
def cfgUnvisited (L : List Blk) (st : CompSt) : Nat := (L.filter (fun b => decide (b ∉ st.visited))).length

theorem filter_len_le {α : Type} (l : List α) {p q : α → Bool} (h : ∀ x, p x = true → q x = true) :
    (l.filter p).length ≤ (l.filter q).length := by
  induction l with
  | nil => exact Nat.le_refl _
  | cons x l ih =>
    simp only [List.filter_cons]
    cases hp : p x with
    | true => rw [h x hp]; simp; exact ih
    | false => cases hq : q x <;> simp <;> omega

theorem filter_len_lt {α : Type} (l : List α) {p q : α → Bool} (h : ∀ x, p x = true → q x = true)
    {a : α} (ha : a ∈ l) (h1 : p a = false) (h2 : q a = true) :
    (l.filter p).length < (l.filter q).length := by
  induction l with
  | nil => cases ha
  | cons x l ih =>
    have hle := filter_len_le l h
    simp only [List.filter_cons]
    rcases List.mem_cons.1 ha with rfl | ha
    · rw [h1, h2]; simp; omega
    · have := ih ha
      cases hp : p x with
      | true => rw [h x hp]; simp; omega
      | false => cases hq : q x <;> simp <;> omega

theorem cfgUnvisited_mono {L : List Blk} {a b : CompSt} (h : ∀ x, x ∈ a.visited → x ∈ b.visited) :
    cfgUnvisited L b ≤ cfgUnvisited L a :=
  filter_len_le L (fun x hx => by
    simp only [decide_eq_true_eq] at hx ⊢
    exact fun hh => hx (h x hh))

theorem cfgEdges_vis {visit : CompSt → Blk → Nat → Option CompSt}
    (hv : ∀ st t d st', visit st t d = some st' → ∀ x, x ∈ st.visited → x ∈ st'.visited)
    {b : Blk} {sc : Nat} :
    ∀ (es : List Edge) (st st' : CompSt), cfgEdges visit b sc es st = some st' →
      ∀ x, x ∈ st.visited → x ∈ st'.visited := by
  intro es
  induction es with
  | nil => intro st st' h x hx; cases h; exact hx
  | cons e es ih =>
    intro st st' h x hx
    unfold cfgEdges at h
    by_cases c1 : e.type = .catch
    · rw [if_pos c1] at h; exact ih _ _ h x hx
    rw [if_neg c1] at h
    by_cases c2 : e.type = .call
    · rw [if_pos c2] at h; exact ih _ _ h x hx
    rw [if_neg c2] at h
    by_cases c3 : e.type = .ret
    · rw [if_pos c3] at h; exact ih _ _ h x hx
    rw [if_neg c3] at h
    by_cases c4 : e.interproc = true
    · rw [if_pos c4] at h; exact ih _ _ h x hx
    rw [if_neg c4] at h
    have hx1 : x ∈ (linkComp (targetComp st e.trg).2 sc (targetComp st e.trg).1 e.trg).visited := by
      rw [link_visited]; exact (compExt_target st e.trg).vis x hx
    simp only at h
    split at h
    · exact ih _ _ h x hx1
    · split at h
      · cases h
      · rename_i s2 hs2
        exact ih _ _ h x (hv _ _ _ _ hs2 x hx1)

theorem cfgVisit_vis {targets : Blk → List Edge} :
    ∀ (n : Nat) (st : CompSt) (t : Blk) (d : Nat) (st' : CompSt),
      cfgVisit targets n st t d = some st' → ∀ x, x ∈ st.visited → x ∈ st'.visited
  | 0, _, _, _, _, h => by cases h
  | n + 1, st, t, d, st', h => by
    intro x hx
    unfold cfgVisit at h
    exact cfgEdges_vis (cfgVisit_vis n) _ _ _ h x (List.mem_cons_of_mem _ hx)

theorem cfgEdges_total {visit : CompSt → Blk → Nat → Option CompSt} {L : List Blk} {n : Nat}
    (hm : ∀ st t d st', visit st t d = some st' → ∀ x, x ∈ st.visited → x ∈ st'.visited)
    (hv : ∀ st t d, t ∈ L → t ∉ st.visited → cfgUnvisited L st ≤ n → ∃ st', visit st t d = some st')
    {b : Blk} {sc : Nat} :
    ∀ (es : List Edge) (st : CompSt), (∀ e, e ∈ es → Followed e → e.trg ∈ L) →
      cfgUnvisited L st ≤ n → ∃ st', cfgEdges visit b sc es st = some st' := by
  intro es
  induction es with
  | nil => intro st _ _; exact ⟨st, rfl⟩
  | cons e es ih =>
    intro st hes hn
    have hes' : ∀ e, e ∈ es → Followed e → e.trg ∈ L := fun e' h' => hes e' (List.mem_cons_of_mem _ h')
    unfold cfgEdges
    by_cases c1 : e.type = .catch
    · rw [if_pos c1]; exact ih _ hes' hn
    rw [if_neg c1]
    by_cases c2 : e.type = .call
    · rw [if_pos c2]; exact ih _ hes' hn
    rw [if_neg c2]
    by_cases c3 : e.type = .ret
    · rw [if_pos c3]; exact ih _ hes' hn
    rw [if_neg c3]
    by_cases c4 : e.interproc = true
    · rw [if_pos c4]; exact ih _ hes' hn
    rw [if_neg c4]
    have hf : Followed e := ⟨c1, c2, c3, by simpa using c4⟩
    have hn1 : cfgUnvisited L (linkComp (targetComp st e.trg).2 sc (targetComp st e.trg).1 e.trg) ≤ n := by
      refine Nat.le_trans (cfgUnvisited_mono (fun x hx => ?_)) hn
      rw [link_visited]; exact (compExt_target st e.trg).vis x hx
    simp only
    split
    · exact ih _ hes' hn1
    · rename_i hnv
      obtain ⟨s2, hs2⟩ := hv _ e.trg (targetComp st e.trg).1 (hes e List.mem_cons_self hf) hnv hn1
      rw [hs2]
      exact ih _ hes' (Nat.le_trans (cfgUnvisited_mono (hm _ _ _ _ hs2)) hn1)

theorem cfgVisit_total {targets : Blk → List Edge} {L : List Blk}
    (hL : ∀ b e, b ∈ L → e ∈ targets b → Followed e → e.trg ∈ L) :
    ∀ (n : Nat) (st : CompSt) (t : Blk) (d : Nat), t ∈ L → t ∉ st.visited → cfgUnvisited L st ≤ n →
      ∃ st', cfgVisit targets n st t d = some st'
  | 0, st, t, d, ht, hnv, hn => by
    have : 0 < cfgUnvisited L st := by
      unfold cfgUnvisited
      exact List.length_pos_of_mem (List.mem_filter.2 ⟨ht, by simpa using hnv⟩)
    omega
  | n + 1, st, t, d, ht, hnv, hn => by
    unfold cfgVisit
    refine cfgEdges_total (n := n) (cfgVisit_vis n) (cfgVisit_total hL n) _ _
      (fun e he hf => hL t e ht he hf) ?_
    have : cfgUnvisited L (enterBlock st t d) < cfgUnvisited L st := by
      refine filter_len_lt L (fun x hx => ?_) ht ?_ ?_
      · simp only [decide_eq_true_eq] at hx ⊢
        exact fun hh => hx (List.mem_cons_of_mem _ hh)
      · simp only [decide_eq_false_iff_not, Classical.not_not]
        exact enter_vis st t d
      · simpa using hnv
    omega

/-! ## The loops -/

/-- Different loops share no block. -/
def LoopsDisjoint (loops : List (List Blk)) : Prop :=
  ∀ (i j : Nat) (li lj : List Blk) (b : Blk), loops[i]? = some li → loops[j]? = some lj → b ∈ li → b ∈ lj → i = j

theorem addLoops_inv {targets : Blk → List Edge} {r : Blk} :
    ∀ (loops : List (List Blk)), LoopsDisjoint loops →
      CompInv targets r loops (loops.foldl addLoop {}) ∧
      (loops.foldl addLoop {}).visited = [] ∧ (loops.foldl addLoop {}).next = loops.length := by
  intro loops
  -- from the back, since the last loop was added last
  have main : ∀ (l : List (List Blk)), LoopsDisjoint l.reverse →
      CompInv targets r l.reverse (l.reverse.foldl addLoop {}) ∧
      (l.reverse.foldl addLoop {}).visited = [] ∧
      (l.reverse.foldl addLoop {}).next = l.reverse.length := by
    intro l
    induction l with
    | nil =>
      intro _
      refine ⟨⟨?_, ?_, ?_, ?_, ?_, ?_, ?_, ?_, ?_, ?_, ?_, ?_⟩, rfl, rfl⟩
      · intro b c h; cases h
      · intro c _; rfl
      · intro b c; exact ⟨(fun h => by cases h), (fun h => by cases h)⟩
      · intro b h; cases h
      · intro c d h; cases h
      · intro c d t h; cases h
      · intro c d t h; cases h
      · intro c b h; cases h
      · exact Nat.le_refl _
      · intro c l h; cases h
      · intro c _ b b' h; cases h
      · intro b c h; cases h
    | cons a l ih =>
      intro hd
      rw [List.reverse_cons] at hd ⊢
      generalize l.reverse = L at ih hd
      have hd' : LoopsDisjoint L := by
        intro i j li lj b hi hj
        refine hd i j li lj b ?_ ?_
        · rw [List.getElem?_append_left]
          · exact hi
          · exact (List.getElem?_eq_some_iff.1 hi).1
        · rw [List.getElem?_append_left]
          · exact hj
          · exact (List.getElem?_eq_some_iff.1 hj).1
      obtain ⟨h, hv, hn⟩ := ih hd'
      rw [List.foldl_append]
      simp only [List.foldl_cons, List.foldl_nil]
      generalize L.foldl addLoop {} = st at h hv hn
      have hnew : ∀ b, b ∈ a → ∀ c, st.scOf b ≠ some c := by
        intro b hb c hc
        have hlt := h.lt b c hc
        rw [hn] at hlt
        have hin := (h.loopBlocks c _ (List.getElem?_eq_getElem hlt) b).1 ((h.blocks b c).2 hc)
        have := hd c L.length (L[c]) a b (by
          rw [List.getElem?_append_left hlt]; exact List.getElem?_eq_getElem hlt) (by simp) hin hb
        omega
      refine ⟨⟨?_, ?_, ?_, ?_, ?_, ?_, ?_, ?_, ?_, ?_, ?_, ?_⟩, hv, ?_⟩
      · intro b c hb
        simp only [addLoop] at hb ⊢
        split at hb
        · injection hb with hb; omega
        · have := h.lt b c hb; omega
      · intro c hc
        simp only [addLoop] at hc ⊢
        rw [if_neg (by omega)]; exact h.fresh c (by omega)
      · intro b c
        simp only [addLoop]
        by_cases e : c = st.next
        · rw [if_pos e]; subst e
          by_cases hb : b ∈ a
          · simp [hb]
          · rw [if_neg hb]
            exact ⟨fun h' => absurd h' hb, fun h' => absurd (h.lt _ _ h') (Nat.lt_irrefl _)⟩
        · rw [if_neg e]
          by_cases hb : b ∈ a
          · rw [if_pos hb]
            refine ⟨fun h' => absurd ((h.blocks b c).1 h') (hnew b hb c), fun h' => ?_⟩
            injection h' with h'; exact absurd h'.symm e
          · rw [if_neg hb]; exact h.blocks b c
      · intro b hb
        have : b ∈ st.visited := hb
        rw [hv] at this; cases this
      · intro c d hc
        simp only [addLoop] at hc
        split at hc
        · cases hc
        · obtain ⟨t, _, _, b, _, hb, _⟩ := h.children c d hc
          rw [hv] at hb; cases hb
      · intro c d t hc
        simp only [addLoop] at hc
        split at hc
        · cases hc
        · obtain ⟨_, _, b, _, hb, _⟩ := h.outgoing c d t hc
          rw [hv] at hb; cases hb
      · intro c d t hc
        simp only [addLoop] at hc
        split at hc
        · cases hc
        · obtain ⟨_, _, b, _, hb, _⟩ := h.tgts c d t hc
          rw [hv] at hb; cases hb
      · intro c b hc
        simp only [addLoop] at hc
        split at hc
        · cases hc
        · have := (h.returns c b hc).1
          rw [hv] at this; cases this
      · simp [addLoop, hn]
      · intro c l hl b
        simp only [addLoop]
        by_cases e : c = st.next
        · rw [if_pos e]
          rw [e, hn] at hl
          simp at hl; rw [hl]
        · rw [if_neg e]
          have hc : c < L.length := by
            have := (List.getElem?_eq_some_iff.1 hl).1
            simp at this; omega
          rw [List.getElem?_append_left hc] at hl
          exact h.loopBlocks c l hl b
      · intro c hc b b' hb
        simp at hc
        simp only [addLoop] at hb
        rw [if_neg (by omega), h.fresh c (by omega)] at hb
        cases hb
      · intro b c hb hc
        simp at hc
        simp only [addLoop] at hb
        split at hb
        · injection hb with hb; omega
        · have := h.lt b c hb; omega
      · simp [addLoop, hn]
  intro hd
  have := main loops.reverse (by rw [List.reverse_reverse]; exact hd)
  rw [List.reverse_reverse] at this
  exact this

end Verif
