import Verif.HeapOrder

/-!
Termination of `AnalyseBlocks` (`/repo/src/heap.h:376-411`): the measure.
-/

namespace Verif

/-! ## Sums -/

theorem sum_le_of {α : Type} (l : List α) {f g : α → Nat} (h : ∀ x, x ∈ l → f x ≤ g x) :
    (l.map f).sum ≤ (l.map g).sum := by
  induction l with
  | nil => simp
  | cons x l ih =>
    have h1 := h x List.mem_cons_self
    have h2 := ih (fun y hy => h y (List.mem_cons_of_mem _ hy))
    simp only [List.map_cons, List.sum_cons]; omega

theorem sum_lt_of {α : Type} (l : List α) {f g : α → Nat} (h : ∀ x, x ∈ l → f x ≤ g x)
    {a : α} (ha : a ∈ l) (hlt : f a < g a) : (l.map f).sum < (l.map g).sum := by
  induction l with
  | nil => cases ha
  | cons x l ih =>
    have h1 := h x List.mem_cons_self
    have h2 : ∀ y, y ∈ l → f y ≤ g y := fun y hy => h y (List.mem_cons_of_mem _ hy)
    have h3 := sum_le_of l h2
    simp only [List.map_cons, List.sum_cons]
    rcases List.mem_cons.1 ha with rfl | ha
    · omega
    · have := ih h2 ha; omega

theorem sum_const_bound {α : Type} (l : List α) {f : α → Nat} {b : Nat} (h : ∀ x, f x ≤ b) :
    (l.map f).sum ≤ b * l.length := by
  induction l with
  | nil => simp
  | cons x l ih =>
    have h1 := h x
    simp only [List.map_cons, List.sum_cons, List.length_cons, Nat.mul_add, Nat.mul_one]; omega

/-! ## Ranks -/

/-- Height of a type in the order. -/
def lrank : Loc → Nat
  | .bottom => 0
  | .heap => 1
  | .arg => 1
  | .stack => 1
  | .heapOrArg => 2
  | .top => 3

/-- Height of an entry for a register. -/
def orank : Option Loc → Nat
  | none => 0
  | some t => 1 + lrank t

/-- Height of an entry for a slot. -/
def srank : Option (Option Loc) → Nat
  | none => 0
  | some (some t) => 1 + lrank t
  | some none => 5

theorem lrank_le (t : Loc) : lrank t ≤ 3 := by cases t <;> decide

theorem LocLe.rank {t o : Loc} (h : LocLe t o) : lrank t ≤ lrank o := by
  revert h; cases t <;> cases o <;> decide

theorem LocLe.rank_lt {t o : Loc} (h : LocLe t o) (hn : t ≠ o) : lrank t < lrank o := by
  revert h hn; cases t <;> cases o <;> decide

theorem orank_le (x : Option Loc) : orank x ≤ 5 := by
  cases x with
  | none => decide
  | some t => have := lrank_le t; simp only [orank]; omega

theorem srank_le (x : Option (Option Loc)) : srank x ≤ 5 := by
  rcases x with _ | _ | t
  · decide
  · decide
  · have := lrank_le t; simp only [srank]; omega

theorem OLe.rank {x y : Option Loc} (h : OLe x y) : orank x ≤ orank y := by
  cases h with
  | none => exact Nat.zero_le _
  | some h => have := h.rank; simp only [orank]; omega

theorem OLe.rank_lt {x y : Option Loc} (h : OLe x y) (hn : x ≠ y) : orank x < orank y := by
  cases h with
  | @none y =>
    cases y with
    | none => exact absurd rfl hn
    | some t => simp only [orank]; omega
  | some h => have := h.rank_lt (fun e => hn (by rw [e])); simp only [orank]; omega

theorem SLe.rank {x y : Option (Option Loc)} (h : SLe x y) : srank x ≤ srank y := by
  cases h with
  | none => exact Nat.zero_le _
  | null => exact srank_le _
  | some h => have := h.rank; simp only [srank]; omega

theorem SLe.rank_lt {x y : Option (Option Loc)} (h : SLe x y) (hn : x ≠ y) :
    srank x < srank y := by
  cases h with
  | @none y =>
    rcases y with _ | _ | t
    · exact absurd rfl hn
    · simp only [srank]; omega
    · simp only [srank]; omega
  | @null x =>
    cases x with
    | none => exact absurd rfl hn
    | some t => have := lrank_le t; simp only [srank]; omega
  | some h => have := h.rank_lt (fun e => hn (by rw [e])); simp only [srank]; omega

/-! ## Finitely many keys -/

/-- All keys are in the lists. -/
structure HView.In (K : List RKey) (S : List Int) (v : HView) : Prop where
  r : ∀ k, v.r k ≠ none → k ∈ K
  s : ∀ h, v.s h ≠ none → h ∈ S

/-- The registers whose entries the effect may change. -/
def HEff.rk : HEff → List RKey
  | .skip => []
  | .consts l => l.map (·.1)
  | .copy d s => [d, s]
  | .load d _ => [d]
  | .store _ s => [s]

/-- The slots whose entries the effect may change. -/
def HEff.sk : HEff → List Int
  | .load _ h => [h]
  | .store h _ => [h]
  | _ => []

theorem lastConst_key {l : List (RKey × Loc)} {k : RKey} (h : lastConst l k ≠ none) :
    k ∈ l.map (·.1) := by
  induction l with
  | nil => exact absurd rfl h
  | cons p l ih =>
    rw [lastConst, List.foldl_cons, lastConst_go] at h
    by_cases e : p.1 = k
    · subst e; exact List.mem_cons_self
    · rw [if_neg e] at h
      exact List.mem_cons_of_mem _ (ih (by simpa using h))

theorem act_in {K : List RKey} {S : List Int} {e : HEff} {v : HView} (hk : ∀ k, k ∈ e.rk → k ∈ K)
    (hs : ∀ h, h ∈ e.sk → h ∈ S) (hv : v.In K S) : (e.act v).In K S := by
  cases e with
  | skip => exact hv
  | consts l =>
    refine ⟨fun k h => ?_, hv.s⟩
    simp only [HEff.act] at h
    by_cases e : lastConst l k = none
    · rw [e] at h; exact hv.r k (by simpa using h)
    · exact hk k (lastConst_key e)
  | copy d s =>
    refine ⟨fun k h => ?_, hv.s⟩
    simp only [HEff.act] at h
    by_cases e : k = d ∨ k = s
    · exact hk k (by simpa [HEff.rk] using e)
    · rw [if_neg e] at h; exact hv.r k h
  | load d x =>
    refine ⟨fun k h => ?_, fun k h => ?_⟩
    · simp only [HEff.act] at h
      by_cases e : k = d
      · exact hk k (by simpa [HEff.rk] using e)
      · rw [if_neg e] at h; exact hv.r k h
    · simp only [HEff.act] at h
      by_cases e : k = x
      · exact hs k (by simpa [HEff.sk] using e)
      · rw [if_neg e] at h; exact hv.s k h
  | store x s =>
    refine ⟨fun k h => ?_, fun k h => ?_⟩
    · simp only [HEff.act] at h
      by_cases e : k = s
      · exact hk k (by simpa [HEff.rk] using e)
      · rw [if_neg e] at h; exact hv.r k h
    · simp only [HEff.act] at h
      by_cases e : k = x
      · exact hs k (by simpa [HEff.sk] using e)
      · rw [if_neg e] at h; exact hv.s k h

theorem join_in {K : List RKey} {S : List Int} {v w : HView} (hv : v.In K S) (hw : w.In K S) :
    (v.join w).In K S := by
  constructor
  · intro k h
    cases e : v.r k with
    | some t => exact hv.r k (by rw [e]; exact Option.some_ne_none _)
    | none => simp only [HView.join, e, ojoin] at h; exact hw.r k h
  · intro k h
    cases e : v.s k with
    | some t => exact hv.s k (by rw [e]; exact Option.some_ne_none _)
    | none => simp only [HView.join, e, sjoin] at h; exact hw.s k h

theorem HView.In.mono {K K' : List RKey} {S S' : List Int} {v : HView} (h : v.In K S)
    (hk : ∀ k, k ∈ K → k ∈ K') (hs : ∀ k, k ∈ S → k ∈ S') : v.In K' S' :=
  ⟨fun k hh => hk k (h.r k hh), fun k hh => hs k (h.s k hh)⟩

/-- Height of a view. -/
def vrank (K : List RKey) (S : List Int) (v : HView) : Nat :=
  (K.map (fun k => orank (v.r k))).sum + (S.map (fun h => srank (v.s h))).sum

theorem vrank_bound (K : List RKey) (S : List Int) (v : HView) :
    vrank K S v ≤ 5 * K.length + 5 * S.length :=
  Nat.add_le_add (sum_const_bound K (fun _ => orank_le _)) (sum_const_bound S (fun _ => srank_le _))

theorem vrank_le {K : List RKey} {S : List Int} {v w : HView} (h : v.Le w) :
    vrank K S v ≤ vrank K S w :=
  Nat.add_le_add (sum_le_of K (fun k _ => (h.r k).rank)) (sum_le_of S (fun k _ => (h.s k).rank))

theorem vrank_lt {K : List RKey} {S : List Int} {v w : HView} (h : v.Le w) (hn : v ≠ w)
    (hw : w.In K S) : vrank K S v < vrank K S w := by
  by_cases hr : ∀ k, v.r k = w.r k
  · by_cases hs : ∀ k, v.s k = w.s k
    · exfalso; apply hn
      cases v; cases w; congr 1
      · funext k; exact hr k
      · funext k; exact hs k
    · obtain ⟨k, hk⟩ := Classical.not_forall.1 hs
      have hlt := (h.s k).rank_lt hk
      have hm : k ∈ S := hw.s k (fun e => by rw [e] at hlt; simp [srank] at hlt)
      exact Nat.add_lt_add_of_le_of_lt (sum_le_of K (fun k _ => (h.r k).rank))
        (sum_lt_of S (fun k _ => (h.s k).rank) hm hlt)
  · obtain ⟨k, hk⟩ := Classical.not_forall.1 hr
    have hlt := (h.r k).rank_lt hk
    have hm : k ∈ K := hw.r k (fun e => by rw [e] at hlt; simp [orank] at hlt)
    exact Nat.add_lt_add_of_lt_of_le (sum_lt_of K (fun k _ => (h.r k).rank) hm hlt)
      (sum_le_of S (fun k _ => (h.s k).rank))

/-! ## The invariant -/

/-- The context whose argument registers are set at every visit of the entry block. -/
def entryNode (I : HeapIn) : HNode := (I.co.entry I.f, 0)

/-- The keys of the contexts are among `K` and `S`. -/
def AllIn (K : List RKey) (S : List Int) (info : HNode → HCtx) : Prop := ∀ n, (info n).view.In K S

/-- Contexts other than that of the first instruction of the entry block are settled. -/
def AllSettled (I : HeapIn) (info : HNode → HCtx) : Prop :=
  ∀ n, n ≠ entryNode I → SettledAt I n (info n).view

/-- The contexts of a component. -/
def compNodes (I : HeapIn) (comp : List Blk) : List HNode :=
  comp.flatMap (fun b => (List.range ((I.insns b).length + 1)).map (fun k => (b, k)))

theorem mem_compNodes {I : HeapIn} {comp : List Blk} {n : HNode} :
    n ∈ compNodes I comp ↔ n.1 ∈ comp ∧ n.2 ≤ (I.insns n.1).length := by
  obtain ⟨b, k⟩ := n
  simp only [compNodes, List.mem_flatMap, List.mem_map, List.mem_range, Prod.mk.injEq]
  constructor
  · rintro ⟨b', hb, k', hk, rfl, rfl⟩; exact ⟨hb, by omega⟩
  · rintro ⟨hb, hk⟩; exact ⟨b, hb, k, by omega, rfl, rfl⟩

/-- The invariant of the loop which bounds its length. -/
structure TermInv (I : HeapIn) (comp : List Blk) (K : List RKey) (S : List Int) (st : HState) :
    Prop where
  ok : InfoOk st.info
  settled : AllSettled I st.info
  keys : AllIn K S st.info
  work : ∀ p, p ∈ st.work → p.1 ∈ compNodes I comp

/-- Keys occurring in a component. -/
structure KeysOf (I : HeapIn) (comp : List Blk) (K : List RKey) (S : List Int) : Prop where
  args : ∀ r, r ∈ argRegs → some (HReg.gpr r) ∈ K
  rk : ∀ n, n ∈ compNodes I comp → ∀ k, k ∈ (effAt I n).rk → k ∈ K
  sk : ∀ n, n ∈ compNodes I comp → ∀ k, k ∈ (effAt I n).sk → k ∈ S

/-- How far the contexts of a component are from their greatest value. -/
def deficit (I : HeapIn) (comp : List Blk) (K : List RKey) (S : List Int) (st : HState) : Nat :=
  (((compNodes I comp).filter (fun n => n != entryNode I)).map
    (fun n => 5 * K.length + 5 * S.length - vrank K S (st.info n).view)).sum

/-- What a work item counts for. -/
def itemWeight (I : HeapIn) (n : HNode) : Nat :=
  if n = entryNode I then 2 + (I.co.targets n.1).length else 1

/-- What a work list counts for. -/
def workWeight (I : HeapIn) (w : List (HNode × List HNode)) : Nat :=
  (w.map (fun p => itemWeight I p.1)).sum

theorem workWeight_append (I : HeapIn) (a b : List (HNode × List HNode)) :
    workWeight I (a ++ b) = workWeight I a + workWeight I b := by
  simp [workWeight]

/-! ## Setting the argument registers -/

theorem setArgs_in {K : List RKey} {S : List Int} {c : HCtx}
    (hk : ∀ r, r ∈ argRegs → some (HReg.gpr r) ∈ K) (hc : c.view.In K S) :
    (setArgs c).view.In K S := by
  unfold setArgs
  revert hk
  generalize argRegs = l
  intro hk
  induction l generalizing c with
  | nil => exact hc
  | cons r l ih =>
    rw [List.foldl_cons]
    refine ih ?_ (fun r' hr => hk r' (List.mem_cons_of_mem _ hr))
    refine ⟨fun k h => ?_, hc.s⟩
    simp only [HCtx.view, amGet_amSet] at h
    by_cases e : some (HReg.gpr r) = k
    · rw [← e]; exact hk r List.mem_cons_self
    · rw [if_neg e] at h; exact hc.r k h

/-! ## The work list -/

/-- What adding work does. -/
structure HPushed (I : HeapIn) (comp : List Blk) (K : List RKey) (S : List Int)
    (a b : HState) : Prop where
  same : ∀ n, n ≠ entryNode I → b.info n = a.info n
  inv : TermInv I comp K S a → TermInv I comp K S b

theorem HPushed.trans {I : HeapIn} {comp : List Blk} {K : List RKey} {S : List Int}
    {a b c : HState} (h1 : HPushed I comp K S a b) (h2 : HPushed I comp K S b c) :
    HPushed I comp K S a c :=
  ⟨fun n hn => (h2.same n hn).trans (h1.same n hn), fun h => h2.inv (h1.inv h)⟩

theorem updateWork_pushed {I : HeapIn} {comp : List Blk} {K : List RKey} {S : List Int}
    (hk : KeysOf I comp K S) {st : HState} {b : Blk} (hb : b ∈ comp) :
    HPushed I comp K S st (updateWork I st b) := by
  have hn : ((b, 0) : HNode) ∈ compNodes I comp := mem_compNodes.2 ⟨hb, Nat.zero_le _⟩
  unfold updateWork
  by_cases e : b = I.co.entry I.f
  · rw [if_pos e]
    have hE : ∀ n : HNode, n ≠ entryNode I → n ≠ (b, 0) := by
      intro n h h'; apply h; rw [h', e]; rfl
    refine ⟨fun n h => ?_, fun h => ⟨?_, ?_, ?_, ?_⟩⟩
    · simp only [HState.setCtx]; rw [if_neg (hE n h)]
    · exact infoOk_set h.ok _ (setArgs_ok (h.ok _))
    · intro n hn'
      simp only [HState.setCtx]; rw [if_neg (hE n hn')]; exact h.settled n hn'
    · intro n
      simp only [HState.setCtx]
      split
      · exact setArgs_in hk.args (h.keys _)
      · exact h.keys n
    · intro p hp
      simp only [HState.setCtx, List.mem_append, List.mem_singleton] at hp
      rcases hp with hp | rfl
      · exact h.work p hp
      · exact hn
  · rw [if_neg e]
    refine ⟨fun n h => rfl, fun h => ⟨h.ok, h.settled, h.keys, ?_⟩⟩
    intro p hp
    simp only [List.mem_append, List.mem_singleton] at hp
    rcases hp with hp | rfl
    · exact h.work p hp
    · exact hn

theorem foldWork_pushed {I : HeapIn} {comp : List Blk} {K : List RKey} {S : List Int}
    (hk : KeysOf I comp K S) (l : List Edge) {st : HState} :
    HPushed I comp K S st
      (l.foldl (fun st e => if e.trg ∈ comp then updateWork I st e.trg else st) st) := by
  induction l generalizing st with
  | nil => exact ⟨fun _ _ => rfl, id⟩
  | cons e l ih =>
    rw [List.foldl_cons]
    refine HPushed.trans ?_ ih
    split
    · rename_i h; exact updateWork_pushed hk h
    · exact ⟨fun _ _ => rfl, id⟩

theorem pushNext_pushed {I : HeapIn} {comp : List Blk} {K : List RKey} {S : List Int}
    (hk : KeysOf I comp K S) {n : HNode} (hn : n ∈ compNodes I comp) {st : HState} :
    HPushed I comp K S st (pushNext I comp n st) := by
  unfold pushNext
  split
  · rename_i hl
    refine ⟨fun _ _ => rfl, fun h => ⟨h.ok, h.settled, h.keys, fun p hp => ?_⟩⟩
    simp only [List.mem_append, List.mem_singleton] at hp
    rcases hp with hp | rfl
    · exact h.work p hp
    · exact mem_compNodes.2 ⟨(mem_compNodes.1 hn).1, Nat.le_of_lt hl⟩
  · exact foldWork_pushed hk _

/-- The entry block can be left at once again: one instruction and an edge to itself that
`AnalyseBlocks` follows. -/
def EntrySpin (I : HeapIn) (comp : List Blk) : Prop :=
  (I.insns (I.co.entry I.f)).length ≤ 1 ∧ I.co.entry I.f ∈ comp ∧
    ∃ e, e ∈ I.co.targets (I.co.entry I.f) ∧ e.trg = I.co.entry I.f

theorem foldWork_weight {I : HeapIn} {comp : List Blk} (l : List Edge)
    (hl : ∀ e, e ∈ l → e.trg ∈ comp → e.trg ≠ I.co.entry I.f) {st : HState} :
    workWeight I (l.foldl (fun st e => if e.trg ∈ comp then updateWork I st e.trg else st) st).work
      ≤ workWeight I st.work + l.length := by
  induction l generalizing st with
  | nil => simp
  | cons e l ih =>
    rw [List.foldl_cons, List.length_cons]
    refine Nat.le_trans (ih (fun e' he => hl e' (List.mem_cons_of_mem _ he))) ?_
    have : workWeight I (if e.trg ∈ comp then updateWork I st e.trg else st).work
        ≤ workWeight I st.work + 1 := by
      by_cases h : e.trg ∈ comp
      · have hne := hl e List.mem_cons_self h
        rw [if_pos h]; unfold updateWork
        rw [if_neg hne, workWeight_append]
        have : itemWeight I (e.trg, 0) = 1 := by
          unfold itemWeight
          rw [if_neg]
          intro h'; exact hne (congrArg Prod.fst h')
        simp [workWeight, this]
      · rw [if_neg h]; exact Nat.le_succ _
    omega

theorem pushNext_weight {I : HeapIn} {comp : List Blk} (hs : ¬ EntrySpin I comp)
    (hc : I.co.entry I.f ∈ comp) {st : HState} :
    workWeight I (pushNext I comp (entryNode I) st).work <
      workWeight I st.work + itemWeight I (entryNode I) := by
  have hw : itemWeight I (entryNode I) = 2 + (I.co.targets (I.co.entry I.f)).length := by
    simp [itemWeight, entryNode]
  rw [hw]
  unfold pushNext
  split
  · have : itemWeight I ((entryNode I).1, (entryNode I).2 + 1) = 1 := by
      unfold itemWeight
      rw [if_neg]
      intro h; have := congrArg Prod.snd h; simp [entryNode] at this
    rw [workWeight_append]
    simp only [workWeight, List.map_cons, List.map_nil, List.sum_cons, List.sum_nil, this]
    omega
  · rename_i hl
    have hl' : (I.insns (I.co.entry I.f)).length ≤ 1 := by
      have : ¬ (0 + 1 < (I.insns (I.co.entry I.f)).length) := hl
      omega
    have := foldWork_weight (I := I) (comp := comp) (I.co.targets (entryNode I).1)
      (fun e he _ h => hs ⟨hl', hc, e, he, h⟩) (st := st)
    have h2 : (entryNode I).1 = I.co.entry I.f := rfl
    rw [h2] at this ⊢
    omega

theorem newFact_in {I : HeapIn} {comp : List Blk} {K : List RKey} {S : List Int}
    (hk : KeysOf I comp K S) {info : HNode → HCtx} (hi : InfoOk info) (ha : AllIn K S info)
    {n : HNode} (hn : n ∈ compNodes I comp) (ps : List HNode) :
    (newFact I info n ps).view.In K S := by
  have key : ∀ (ps : List HNode) {c : HCtx}, c.Ok → c.view.In K S →
      (meetPreds info n c ps).view.In K S := by
    intro ps
    induction ps with
    | nil => intro c _ h; exact h
    | cons p ps ih =>
      intro c hc h
      unfold meetPreds
      by_cases e : p = n
      · rw [if_pos e]; exact ih hc h
      · rw [if_neg e]
        refine ih (hc.meet (hi p)).1 ?_
        rw [view_meet hc (hi p)]
        exact join_in h (ha p)
  have h2 := (meetPreds_ok hi n ps (hi n)).1
  unfold newFact
  rw [transferAt_eff, view_run (effAt_ok I n) h2]
  exact act_in (hk.rk n hn) (hk.sk n hn) (key ps (hi n) (ha n))

theorem newFact_ok {I : HeapIn} {info : HNode → HCtx} (hi : InfoOk info) (n : HNode)
    (ps : List HNode) : (newFact I info n ps).Ok := by
  have hc := (meetPreds_ok hi n ps (hi n)).1
  unfold newFact transferAt
  split
  · exact (transfer_ok I n.1 _ hc).1
  · exact hc

/-- Every iteration keeps the invariant and makes the measure smaller. -/
theorem heapStep_measure {I : HeapIn} {comp : List Blk} {K : List RKey} {S : List Int}
    (hk : KeysOf I comp K S) (hs : ¬ EntrySpin I comp) {st st' : HState}
    (h : TermInv I comp K S st) (hst : heapStep I comp st = some st') :
    TermInv I comp K S st' ∧
    (deficit I comp K S st' < deficit I comp K S st ∨
      deficit I comp K S st' = deficit I comp K S st ∧
        workWeight I st'.work < workWeight I st.work) := by
  unfold heapStep at hst
  split at hst
  · cases hst
  rename_i n preds rest hw
  have hn : n ∈ compNodes I comp := h.work (n, preds) (by rw [hw]; exact List.mem_cons_self)
  have hcok := newFact_ok (I := I) h.ok n preds
  have hcin := newFact_in hk h.ok h.keys hn preds
  have hset := newFact_settled (I := I) h.ok n preds
  have habove := fun hne => newFact_above h.ok (h.settled n hne) preds
  simp only [Option.some.injEq] at hst
  generalize newFact I st.info n preds = c at *
  have hmid : TermInv I comp K S { (st.setCtx n c) with work := rest } := by
    refine ⟨infoOk_set h.ok n hcok, fun m hm => ?_, fun m => ?_, fun p hp => ?_⟩
    · simp only [HState.setCtx]
      split
      · rename_i e; subst e; exact hset
      · exact h.settled m hm
    · simp only [HState.setCtx]
      split
      · exact hcin
      · exact h.keys m
    · exact h.work p (by rw [hw]; exact List.mem_cons_of_mem _ hp)
  have hww : workWeight I st.work = itemWeight I n + workWeight I rest := by
    rw [hw]; simp [workWeight]
  have hpos : 0 < itemWeight I n := by unfold itemWeight; split <;> omega
  have hsame_iff := same_iff (h.ok n) hcok
  by_cases hsm : HCtx.same (st.info n) c = true
  · rw [if_pos hsm] at hst
    subst hst
    refine ⟨hmid, .inr ⟨?_, ?_⟩⟩
    · unfold deficit
      congr 1
      apply List.map_congr_left
      intro m _
      simp only [HState.setCtx]
      split
      · rename_i e; subst e; rw [hsame_iff.1 hsm]
      · rfl
    · rw [hww]; show workWeight I rest < _; omega
  · rw [if_neg hsm] at hst
    subst hst
    have hp := pushNext_pushed (K := K) (S := S) hk hn (st := { (st.setCtx n c) with work := rest })
    refine ⟨hp.inv hmid, ?_⟩
    by_cases hE : n = entryNode I
    · refine .inr ⟨?_, ?_⟩
      · unfold deficit
        congr 1
        apply List.map_congr_left
        intro m hm
        have hm' : m ≠ entryNode I := by simpa using (List.mem_filter.1 hm).2
        rw [hp.same m hm']
        simp only [HState.setCtx]
        rw [if_neg (fun e => hm' (e.trans hE))]
      · rw [hww]
        have hc : I.co.entry I.f ∈ comp := by
          have := (mem_compNodes.1 hn).1; rw [hE] at this; exact this
        have := pushNext_weight hs hc (st := { (st.setCtx n c) with work := rest })
        rw [hE] at this ⊢
        simp only at this
        omega
    · left
      have hlt := vrank_lt (K := K) (S := S) (habove hE) (fun e => hsm (hsame_iff.2 e)) hcin
      refine sum_lt_of _ (fun m hm => ?_) (a := n)
        (List.mem_filter.2 ⟨hn, by simpa using hE⟩) ?_
      · have hm' : m ≠ entryNode I := by simpa using (List.mem_filter.1 hm).2
        rw [hp.same m hm']
        simp only [HState.setCtx]
        split
        · rename_i e; subst e; omega
        · exact Nat.le_refl _
      · rw [hp.same n hE]
        simp only [HState.setCtx, if_true]
        have := vrank_bound K S c.view
        omega

theorem heap_finishes {I : HeapIn} {comp : List Blk} {K : List RKey} {S : List Int}
    (hk : KeysOf I comp K S) (hs : ¬ EntrySpin I comp) :
    ∀ (d w : Nat) (st : HState), deficit I comp K S st = d → workWeight I st.work = w →
      TermInv I comp K S st →
      ∃ st', HeapSteps I comp st st' ∧ heapStep I comp st' = none ∧ TermInv I comp K S st' := by
  intro d
  induction d using Nat.strongRecOn with
  | _ d ihd =>
    intro w
    induction w using Nat.strongRecOn with
    | _ w ihw =>
      intro st hd hw hinv
      cases hst : heapStep I comp st with
      | none => exact ⟨st, .refl, hst, hinv⟩
      | some st1 =>
        obtain ⟨h1, h2⟩ := heapStep_measure hk hs hinv hst
        rcases h2 with h2 | ⟨h2, h3⟩
        · obtain ⟨st', h4, h5⟩ := ihd _ (by omega) _ st1 rfl rfl h1
          exact ⟨st', HeapSteps.front hst h4, h5⟩
        · obtain ⟨st', h4, h5⟩ := ihw _ (by omega) st1 (by omega) rfl h1
          exact ⟨st', HeapSteps.front hst h4, h5⟩

/-! ## Components and functions -/

theorem TermInv.start {I : HeapIn} {comp : List Blk} {K : List RKey} {S : List Int}
    (hk : KeysOf I comp K S) {info : HNode → HCtx} (h1 : InfoOk info) (h2 : AllSettled I info)
    (h3 : AllIn K S info) : TermInv I comp K S (heapStart I comp info) := by
  unfold heapStart
  split
  · exact ⟨h1, h2, h3, fun p hp => by cases hp⟩
  · rename_i b l
    exact (updateWork_pushed hk (st := ⟨info, []⟩) List.mem_cons_self).inv
      ⟨h1, h2, h3, fun p hp => by cases hp⟩

theorem init_fresh : HCtx.init.view.Fresh := by
  refine ⟨fun k => ?_, fun h => rfl⟩
  cases e : amGet HCtx.init.regs k with
  | none => left; simp only [HCtx.view, e]; rfl
  | some v =>
    right
    have := amGet_mem e
    simp only [HCtx.init, List.mem_map] at this
    obtain ⟨r, _, h⟩ := this
    injection h with _ h
    simp only [HCtx.view]
    rw [show amGet HCtx.init.regs k = some v from e, ← h]; rfl

/-- `Analyse` reaches its end if the entry block is not a single instruction with an edge to
itself. -/
theorem analyses_finish {I : HeapIn} :
    ∀ (comps : List (List Blk)) (info : HNode → HCtx) (K : List RKey) (S : List Int),
      (∀ comp, comp ∈ comps → ¬ EntrySpin I comp) → InfoOk info → AllSettled I info →
      AllIn K S info → ∃ info', Analyses I comps info info'
  | [], info, _, _, _, _, _, _ => ⟨info, .nil⟩
  | comp :: comps, info, K, S, hs, h1, h2, h3 => by
    let K' := K ++ argRegs.map (fun r => some (HReg.gpr r)) ++
      (compNodes I comp).flatMap (fun n => (effAt I n).rk)
    let S' := S ++ (compNodes I comp).flatMap (fun n => (effAt I n).sk)
    have hk : KeysOf I comp K' S' := by
      refine ⟨fun r hr => ?_, fun n hn k hk => ?_, fun n hn k hk => ?_⟩
      · exact List.mem_append_left _ (List.mem_append_right _ (List.mem_map_of_mem hr))
      · exact List.mem_append_right _ (List.mem_flatMap.2 ⟨n, hn, hk⟩)
      · exact List.mem_append_right _ (List.mem_flatMap.2 ⟨n, hn, hk⟩)
    have h3' : AllIn K' S' info := fun n => (h3 n).mono
      (fun k hk => List.mem_append_left _ (List.mem_append_left _ hk))
      (fun k hk => List.mem_append_left _ hk)
    obtain ⟨st, a, b, c⟩ := heap_finishes hk (hs comp List.mem_cons_self) _ _ _ rfl rfl
      (TermInv.start hk h1 h2 h3')
    obtain ⟨info', h⟩ := analyses_finish comps st.info K' S'
      (fun c hc => hs c (List.mem_cons_of_mem _ hc)) c.ok c.settled c.keys
    exact ⟨info', .cons ⟨st, a, b, rfl⟩ h⟩

theorem init_in : HCtx.init.view.In (HCtx.init.regs.map (·.1)) [] := by
  refine ⟨fun k h => ?_, fun x h => absurd rfl h⟩
  cases e : amGet HCtx.init.regs k with
  | none => exfalso; apply h; simp only [HCtx.view]; rw [e]; rfl
  | some v => exact List.mem_map.2 ⟨_, amGet_mem e, rfl⟩

end Verif
