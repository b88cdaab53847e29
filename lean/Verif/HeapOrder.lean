import Verif.HeapLemmas
import Verif.Props.Heap

/-!
Contexts of the heap analysis as functions, their order, and termination of the work list.
-/

namespace Verif

/-! ## Views -/

/-- A context up to `operator==`: type of each register, content of each slot (`none` for a
null `points_to`). -/
structure HView where
  r : RKey → Option Loc
  s : Int → Option (Option Loc)

/-- What matters of the entry for a slot: the type it points to, if any. -/
def slotView : ALoc → Option Loc
  | .last _ _ => none
  | .ptr _ _ to => some to.type

/-- What matters of a context. -/
def HCtx.view (c : HCtx) : HView :=
  ⟨fun k => (amGet c.regs k).map ALoc.type, fun h => (amGet c.stack h).map slotView⟩

/-- The least upper bound of two entries for a register. -/
def ojoin : Option Loc → Option Loc → Option Loc
  | none, y => y
  | x, none => x
  | some t, some o => some (tjoin t o)

/-- What a slot yields when it is read. -/
def content : Option Loc → Loc
  | none => .top
  | some t => t

/-- The least upper bound of two entries for a slot. -/
def sjoin : Option (Option Loc) → Option (Option Loc) → Option (Option Loc)
  | none, y => y
  | x, none => x
  | some none, some _ => some none
  | some (some t), some y => some (some (tjoin t (content y)))

/-- The least upper bound of two views. -/
def HView.join (v w : HView) : HView := ⟨fun k => ojoin (v.r k) (w.r k), fun h => sjoin (v.s h) (w.s h)⟩

theorem SlotV.content {h : Int} {v : ALoc} (hv : SlotV h v) :
    v.pointTo = .flat (Verif.content (slotView v)) := by
  rcases hv with rfl | ⟨t, _, rfl⟩ <;> rfl

theorem view_meet {c d : HCtx} (hc : c.Ok) (hd : d.Ok) : (c.meet d).view = c.view.join d.view := by
  unfold HCtx.view HView.join HCtx.meet
  congr 1
  · funext k
    simp only [amGet_pointMeet]
    cases h1 : amGet c.regs k with
    | none =>
      cases h2 : amGet d.regs k with
      | none => rfl
      | some w => simp [ojoin, (hd.regs _ _ h2).copy.1]
    | some v =>
      cases h2 : amGet d.regs k with
      | none => rfl
      | some w =>
        obtain ⟨t, ht, rfl⟩ := hc.regs _ _ h1
        obtain ⟨o, ho, rfl⟩ := hd.regs _ _ h2
        simp [ojoin, ALoc.flat, ALoc.type]
        rw [show (ALoc.last t intMax).meet (.last o intMax) = .flat (tjoin t o) from
          (flat_meet ht ho).1]
        rfl
  · funext h
    simp only [amGet_pointMeet]
    cases h1 : amGet c.stack h with
    | none =>
      cases h2 : amGet d.stack h with
      | none => rfl
      | some w => simp [sjoin, (hd.stack _ _ h2).copy.1]
    | some v =>
      cases h2 : amGet d.stack h with
      | none => simp [sjoin]
      | some w =>
        have hw := hd.stack _ _ h2
        rcases hc.stack _ _ h1 with rfl | ⟨t, ht, rfl⟩
        · simp only [(slot_meet_null h hw).1]; rfl
        · simp only [(slot_meet_ptr h ht hw).1, Option.map_some, sjoin, slotView]
          rw [hw.content]; rfl

theorem flat_same {v w : ALoc} (hv : FlatV v) (hw : FlatV w) : v.same w = true ↔ v.type = w.type := by
  obtain ⟨t, ht, rfl⟩ := hv
  obtain ⟨o, ho, rfl⟩ := hw
  revert ht ho; cases t <;> cases o <;> decide

theorem slot_same {h : Int} {v w : ALoc} (hv : SlotV h v) (hw : SlotV h w) :
    v.same w = true ↔ slotView v = slotView w := by
  rcases hv with rfl | ⟨t, ht, rfl⟩ <;> rcases hw with rfl | ⟨o, ho, rfl⟩
  · simp [ALoc.stackAt, ALoc.same]
  · simp [ALoc.stackAt, ALoc.same, slotView]
  · simp [ALoc.stackAt, ALoc.same, slotView]
  · have := flat_same ⟨t, ht, rfl⟩ ⟨o, ho, rfl⟩
    simp only [ALoc.same, slotView]
    simpa using this

theorem same_iff {c d : HCtx} (hc : c.Ok) (hd : d.Ok) : c.same d = true ↔ c.view = d.view := by
  unfold HCtx.same
  rw [Bool.and_eq_true]
  have key : ∀ {κ : Type} [DecidableEq κ] {β : Type} (m1 m2 : List (κ × ALoc)) (g : ALoc → β),
      (∀ k v w, amGet m1 k = some v → amGet m2 k = some w → (v.same w = true ↔ g v = g w)) →
      (amSame m1 m2 = true ↔ ∀ k, (amGet m1 k).map g = (amGet m2 k).map g) := by
    intro κ _ β m1 m2 g hg
    unfold amSame
    rw [List.all_eq_true]
    constructor
    · intro h k
      cases h1 : amGet m1 k with
      | none =>
        cases h2 : amGet m2 k with
        | none => rfl
        | some w =>
          have := h (k, w) (List.mem_append_right _ (amGet_mem h2))
          simp [h1] at this
      | some v =>
        have := h (k, v) (List.mem_append_left _ (amGet_mem h1))
        simp only [h1] at this
        cases h2 : amGet m2 k with
        | none => simp [h2] at this
        | some w =>
          simp only [h2] at this
          simp [(hg k v w h1 h2).1 this]
    · intro h p hp
      have hk := h p.1
      cases h1 : amGet m1 p.1 with
      | none =>
        cases h2 : amGet m2 p.1 with
        | none =>
          rcases List.mem_append.1 hp with hp | hp
          · obtain ⟨v, hv⟩ := amGet_isSome hp
            rw [h1] at hv; cases hv
          · obtain ⟨v, hv⟩ := amGet_isSome hp
            rw [h2] at hv; cases hv
        | some w => rw [h1, h2] at hk; cases hk
      | some v =>
        cases h2 : amGet m2 p.1 with
        | none => rw [h1, h2] at hk; cases hk
        | some w =>
          rw [h1, h2] at hk
          simp only [Option.map_some, Option.some.injEq] at hk
          exact (hg _ v w h1 h2).2 hk
  rw [key c.regs d.regs ALoc.type (fun k v w h1 h2 => flat_same (hc.regs _ _ h1) (hd.regs _ _ h2)),
    key c.stack d.stack slotView (fun k v w h1 h2 => slot_same (hc.stack _ _ h1) (hd.stack _ _ h2))]
  unfold HCtx.view
  constructor
  · intro ⟨h1, h2⟩
    congr 1
    · funext k; exact h1 k
    · funext k; exact h2 k
  · intro h
    injection h with h1 h2
    exact ⟨fun k => congrFun h1 k, fun k => congrFun h2 k⟩

/-! ## Effects on views -/

/-- The last constant assigned. -/
def lastConst (l : List (RKey × Loc)) (k : RKey) : Option Loc :=
  l.foldl (fun a p => if p.1 = k then some p.2 else a) none

theorem lastConst_go (l : List (RKey × Loc)) (k : RKey) (a : Option Loc) :
    l.foldl (fun a p => if p.1 = k then some p.2 else a) a = (lastConst l k).or a := by
  induction l generalizing a with
  | nil => simp [lastConst]
  | cons p l ih =>
    rw [lastConst, List.foldl_cons, List.foldl_cons, ih, ih (if p.1 = k then some p.2 else none)]
    split
    · cases lastConst l k <;> simp
    · cases lastConst l k <;> simp

/-- The effect on a view. -/
def HEff.act : HEff → HView → HView
  | .skip, v => v
  | .consts l, v => ⟨fun k => (lastConst l k).or (v.r k), v.s⟩
  | .copy d s, v => ⟨fun k => if k = d ∨ k = s then some ((v.r s).getD .bottom) else v.r k, v.s⟩
  | .load d h, v => ⟨fun k => if k = d then some (content ((v.s h).getD none)) else v.r k,
      fun x => if x = h then some ((v.s h).getD none) else v.s x⟩
  | .store h s, v => ⟨fun k => if k = s then some ((v.r s).getD .bottom) else v.r k,
      fun x => if x = h then
        some (if (v.r s).getD .bottom = .top then none else some ((v.r s).getD .bottom)) else v.s x⟩

theorem reg_type (c : HCtx) (k : RKey) : (c.reg k).type = (c.view.r k).getD .bottom := by
  unfold HCtx.reg
  simp only [HCtx.view]
  cases amGet c.regs k <;> rfl

theorem slot_slotView (c : HCtx) (h : Int) : slotView (c.slot h) = (c.view.s h).getD none := by
  unfold HCtx.slot
  simp only [HCtx.view]
  cases amGet c.stack h <;> rfl

theorem view_setReg {c : HCtx} {k : RKey} {v : ALoc} (hv : FlatV v) :
    (c.setReg k v).view = ⟨fun j => if j = k then some v.type else c.view.r j, c.view.s⟩ := by
  unfold HCtx.view HCtx.setReg
  congr 1
  funext j
  simp only [amGet_amSet, hv.copy.2.1]
  by_cases e : k = j
  · subst e; simp
  · rw [if_neg e, if_neg (Ne.symm e)]

theorem view_touch (c : HCtx) (k : RKey) :
    (c.touch k).view = ⟨fun j => if j = k then some ((c.view.r k).getD .bottom) else c.view.r j,
      c.view.s⟩ := by
  rw [← reg_type]
  unfold HCtx.view HCtx.touch
  congr 1
  funext j
  simp only [amGet_amSet]
  by_cases e : k = j
  · subst e; simp
  · rw [if_neg e, if_neg (Ne.symm e)]

theorem view_setSlot (c : HCtx) (h : Int) (v : ALoc) :
    (c.setSlot h v).view = ⟨c.view.r, fun j => if j = h then some (slotView v) else c.view.s j⟩ := by
  unfold HCtx.view HCtx.setSlot
  congr 1
  funext j
  simp only [amGet_amSet]
  by_cases e : h = j
  · subst e; simp
  · rw [if_neg e, if_neg (Ne.symm e)]

theorem slotView_set {v l : ALoc} (hl : FlatV l) :
    slotView (v.setPointTo l) = if l.type = .top then none else some l.type := by
  obtain ⟨t, ht, rfl⟩ := hl
  unfold ALoc.setPointTo
  revert ht
  cases t <;> intro ht <;> first | rfl | exact absurd rfl ht

theorem view_consts {l : List (RKey × Loc)} {c : HCtx} (hl : ∀ p, p ∈ l → p.2 ≠ .stack) :
    ((HEff.consts l).run c).view = (HEff.consts l).act c.view := by
  induction l generalizing c with
  | nil => simp [HEff.run, HEff.act, lastConst]
  | cons p l ih =>
    rw [show (HEff.consts (p :: l)).run c = (HEff.consts l).run (c.setReg p.1 (.flat p.2)) from rfl,
      ih (fun q hq => hl q (List.mem_cons_of_mem _ hq)),
      view_setReg ⟨_, hl p List.mem_cons_self, rfl⟩]
    simp only [HEff.act]
    congr 1
    funext k
    conv => rhs; rw [lastConst, List.foldl_cons, lastConst_go]
    by_cases e : p.1 = k
    · subst e; cases lastConst l p.1 <;> simp [ALoc.flat, ALoc.type]
    · rw [if_neg e, if_neg (Ne.symm e)]; cases lastConst l k <;> simp

theorem view_run {e : HEff} (he : e.Ok) {c : HCtx} (hc : c.Ok) :
    (e.run c).view = e.act c.view := by
  cases e with
  | skip => rfl
  | consts l => exact view_consts he
  | copy d s =>
    simp only [HEff.run, HEff.act]
    rw [view_setReg (hc.reg s), view_touch, reg_type]
    congr 1
    funext k
    by_cases e : k = d
    · simp [e]
    · by_cases e2 : k = s <;> simp [e, e2]
  | load d h =>
    simp only [HEff.run, HEff.act]
    rw [view_setReg (hc.slot h).copy.2.2.2.1, view_setSlot, (hc.slot h).content, slot_slotView]
    rfl
  | store h s =>
    simp only [HEff.run, HEff.act]
    rw [view_setSlot, view_touch, slotView_set (hc.reg s), reg_type]

/-! ## Order -/

/-- The order of types. -/
def LocLe (t o : Loc) : Prop :=
  t = o ∨ t = .bottom ∨ o = .top ∨ (o = .heapOrArg ∧ (t = .heap ∨ t = .arg))

instance (t o : Loc) : Decidable (LocLe t o) := by unfold LocLe; infer_instance

/-- The order of entries for a register. -/
inductive OLe : Option Loc → Option Loc → Prop
  | none {y} : OLe none y
  | some {t o} : LocLe t o → OLe (some t) (some o)

/-- The order of entries for a slot. -/
inductive SLe : Option (Option Loc) → Option (Option Loc) → Prop
  | none {y} : SLe none y
  | null {x} : SLe (some x) (some none)
  | some {t o} : LocLe t o → SLe (some (some t)) (some (some o))

/-- The order of views. -/
structure HView.Le (v w : HView) : Prop where
  r : ∀ k, OLe (v.r k) (w.r k)
  s : ∀ h, SLe (v.s h) (w.s h)

theorem LocLe.trans {a b c : Loc} (h1 : LocLe a b) (h2 : LocLe b c) : LocLe a c := by
  revert h1 h2; cases a <;> cases b <;> cases c <;> decide

theorem LocLe.refl (a : Loc) : LocLe a a := .inl rfl

theorem OLe.refl (x : Option Loc) : OLe x x := by
  cases x with
  | none => exact .none
  | some t => exact .some (.refl t)

theorem OLe.trans {a b c : Option Loc} (h1 : OLe a b) (h2 : OLe b c) : OLe a c := by
  cases h1 with
  | none => exact .none
  | some h => cases h2 with | some h' => exact .some (h.trans h')

theorem SLe.refl (x : Option (Option Loc)) : SLe x x := by
  rcases x with _ | _ | t
  · exact .none
  · exact .null
  · exact .some (.refl t)

theorem SLe.trans {a b c : Option (Option Loc)} (h1 : SLe a b) (h2 : SLe b c) : SLe a c := by
  cases h1 with
  | none => exact .none
  | null => cases h2; exact .null
  | some h =>
    cases h2 with
    | null => exact .null
    | some h' => exact .some (h.trans h')

theorem HView.Le.refl (v : HView) : v.Le v := ⟨fun _ => .refl _, fun _ => .refl _⟩

theorem HView.Le.trans {a b c : HView} (h1 : a.Le b) (h2 : b.Le c) : a.Le c :=
  ⟨fun k => (h1.r k).trans (h2.r k), fun k => (h1.s k).trans (h2.s k)⟩

theorem tjoin_left (t o : Loc) (ht : t ≠ .stack) (ho : o ≠ .stack) : LocLe t (tjoin t o) := by
  revert ht ho; cases t <;> cases o <;> decide

theorem tjoin_right (t o : Loc) (ht : t ≠ .stack) (ho : o ≠ .stack) : LocLe o (tjoin t o) := by
  revert ht ho; cases t <;> cases o <;> decide

/-- No STACK in a view. -/
structure HView.Ok (v : HView) : Prop where
  r : ∀ k, v.r k ≠ some .stack
  s : ∀ h, v.s h ≠ some (some .stack)

theorem HCtx.Ok.view {c : HCtx} (h : c.Ok) : c.view.Ok := by
  constructor
  · intro k e
    simp only [HCtx.view] at e
    cases h1 : amGet c.regs k with
    | none => rw [h1] at e; cases e
    | some v =>
      rw [h1] at e
      obtain ⟨t, ht, rfl⟩ := h.regs _ _ h1
      simp [ALoc.flat, ALoc.type] at e; exact ht e
  · intro x e
    simp only [HCtx.view] at e
    cases h1 : amGet c.stack x with
    | none => rw [h1] at e; cases e
    | some v =>
      rw [h1] at e
      rcases h.stack _ _ h1 with rfl | ⟨t, ht, rfl⟩
      · simp [ALoc.stackAt, slotView] at e
      · simp [ALoc.flat, ALoc.type, slotView] at e; exact ht e

theorem content_ok {x : Option Loc} (h : some x ≠ some (some Loc.stack)) : content x ≠ .stack := by
  cases x with
  | none => decide
  | some t => intro e; exact h (by simp [content] at e; rw [e])

theorem join_left {v w : HView} (hv : v.Ok) (hw : w.Ok) : v.Le (v.join w) := by
  constructor
  · intro k
    simp only [HView.join]
    have h1 := hv.r k
    have h2 := hw.r k
    cases e1 : v.r k with
    | none => exact .none
    | some t =>
      cases e2 : w.r k with
      | none => exact .refl _
      | some o =>
        rw [e1] at h1; rw [e2] at h2
        exact .some (tjoin_left t o (fun e => h1 (by rw [e])) (fun e => h2 (by rw [e])))
  · intro h
    simp only [HView.join]
    have h1 := hv.s h
    have h2 := hw.s h
    rcases e1 : v.s h with _ | _ | t
    · exact .none
    · cases e2 : w.s h with
      | none => exact .refl _
      | some o => exact .null
    · cases e2 : w.s h with
      | none => exact .refl _
      | some o =>
        rw [e1] at h1; rw [e2] at h2
        exact .some (tjoin_left t _ (fun e => h1 (by rw [e])) (content_ok h2))

theorem join_right {v w : HView} (hv : v.Ok) (hw : w.Ok) (k : RKey) : OLe (w.r k) ((v.join w).r k) := by
  simp only [HView.join]
  have h1 := hv.r k
  have h2 := hw.r k
  cases e1 : v.r k with
  | none => exact .refl _
  | some t =>
    cases e2 : w.r k with
    | none => exact .none
    | some o =>
      rw [e1] at h1; rw [e2] at h2
      exact .some (tjoin_right t o (fun e => h1 (by rw [e])) (fun e => h2 (by rw [e])))

/-! ## Fixed points of effects -/

theorem act_idem (e : HEff) (v : HView) : e.act (e.act v) = e.act v := by
  cases e with
  | skip => rfl
  | consts l =>
    simp only [HEff.act]
    congr 1
    funext k
    cases lastConst l k <;> simp
  | copy d s =>
    simp only [HEff.act]
    congr 1
    funext k
    by_cases e : k = d ∨ k = s <;> simp [e]
  | load d h =>
    simp only [HEff.act]
    congr 1
    · funext k
      by_cases e : k = d <;> simp [e]
    · funext k
      by_cases e : k = h <;> simp [e]
  | store h s =>
    simp only [HEff.act]
    congr 1
    · funext k
      by_cases e : k = s <;> simp [e]
    · funext k
      by_cases e : k = h <;> simp [e]

theorem OLe.getD {x y : Option Loc} (h : OLe x y) : LocLe (x.getD .bottom) (y.getD .bottom) := by
  cases h with
  | none => exact .inr (.inl rfl)
  | some h => exact h

/-- A fact which the effect leaves as it is stays below after a larger fact is transferred. -/
theorem act_above {e : HEff} {v w : HView} (hc : e.act v = v) (hle : v.Le w) : v.Le (e.act w) := by
  cases e with
  | skip => exact hle
  | consts l =>
    refine ⟨fun k => ?_, hle.s⟩
    have := congrFun (congrArg HView.r hc) k
    simp only [HEff.act] at this ⊢
    cases e : lastConst l k with
    | none => simpa using hle.r k
    | some t =>
      rw [e] at this
      simp at this ⊢
      rw [← this]; exact .refl _
  | copy d s =>
    refine ⟨fun k => ?_, hle.s⟩
    have := congrFun (congrArg HView.r hc) k
    simp only [HEff.act] at this ⊢
    split
    · rename_i e
      rw [if_pos e] at this
      rw [← this]
      exact .some (hle.r s).getD
    · exact hle.r k
  | load d h =>
    have hs := congrFun (congrArg HView.s hc) h
    simp only [HEff.act, if_true] at hs
    have key : SLe (some ((v.s h).getD none)) (some ((w.s h).getD none)) := by
      have := hle.s h
      rw [← hs] at this
      generalize (v.s h).getD none = x at this
      cases e : w.s h with
      | none => rw [e] at this; cases this
      | some y => rw [e] at this; exact this
    constructor
    · intro k
      have := congrFun (congrArg HView.r hc) k
      simp only [HEff.act] at this ⊢
      split
      · rename_i e
        rw [if_pos e] at this
        rw [← this]
        refine .some ?_
        generalize (v.s h).getD none = x at key
        generalize (w.s h).getD none = y at key
        cases key with
        | null => exact .inr (.inr (.inl rfl))
        | some h => exact h
      · exact hle.r k
    · intro x
      have := congrFun (congrArg HView.s hc) x
      simp only [HEff.act] at this ⊢
      split
      · rename_i e
        rw [if_pos e] at this
        rw [← this]; exact key
      · exact hle.s x
  | store h s =>
    have key := (hle.r s).getD
    constructor
    · intro k
      have := congrFun (congrArg HView.r hc) k
      simp only [HEff.act] at this ⊢
      split
      · rename_i e
        rw [if_pos e] at this
        rw [← this]
        exact .some key
      · exact hle.r k
    · intro x
      have := congrFun (congrArg HView.s hc) x
      simp only [HEff.act] at this ⊢
      split
      · rename_i e
        rw [if_pos e] at this
        rw [← this]
        generalize (v.r s).getD .bottom = t at key
        generalize (w.r s).getD .bottom = o at key
        by_cases e1 : o = .top
        · rw [if_pos e1]; exact .null
        · rw [if_neg e1]
          by_cases e2 : t = .top
          · subst e2
            exfalso; revert key e1; cases o <;> decide
          · rw [if_neg e2]; exact .some key
      · exact hle.s x

/-- Nothing known yet. -/
structure HView.Fresh (v : HView) : Prop where
  r : ∀ k, v.r k = none ∨ v.r k = some .bottom
  s : ∀ h, v.s h = none

theorem fresh_above {e : HEff} {v w : HView} (hf : v.Fresh) (hle : v.Le w) : v.Le (e.act w) := by
  refine ⟨fun k => ?_, fun h => by rw [hf.s h]; exact .none⟩
  rcases hf.r k with h | h
  · rw [h]; exact .none
  · rw [h]
    have hk := hle.r k
    rw [h] at hk
    have : ∃ t, (e.act w).r k = some t := by
      cases hw : w.r k with
      | none => rw [hw] at hk; cases hk
      | some o =>
        cases e with
        | skip => exact ⟨o, hw⟩
        | consts l =>
          simp only [HEff.act, hw]
          cases lastConst l k with
          | none => exact ⟨_, rfl⟩
          | some t => exact ⟨t, rfl⟩
        | copy d s => simp only [HEff.act, hw]; split <;> exact ⟨_, rfl⟩
        | load d h => simp only [HEff.act, hw]; split <;> exact ⟨_, rfl⟩
        | store h s => simp only [HEff.act, hw]; split <;> exact ⟨_, rfl⟩
    obtain ⟨t, ht⟩ := this
    rw [ht]
    exact .some (.inr (.inl rfl))

/-- The effect at a context. -/
def effAt (I : HeapIn) (n : HNode) : HEff :=
  match I.insn n with
  | none => .skip
  | some ins => effOf I n.1 ins

theorem effAt_ok (I : HeapIn) (n : HNode) : (effAt I n).Ok := by
  unfold effAt
  cases I.insn n with
  | none => trivial
  | some ins => exact effOf_ok I n.1 ins

theorem transferAt_eff (I : HeapIn) (n : HNode) (c : HCtx) :
    transferAt I n c = (effAt I n).run c := by
  unfold transferAt effAt
  cases I.insn n with
  | none => rfl
  | some ins => exact transfer_eff I n.1 ins c

/-- A context is fresh, or what its own instruction leaves behind. -/
def SettledAt (I : HeapIn) (n : HNode) (v : HView) : Prop := v.Fresh ∨ (effAt I n).act v = v

theorem meetPreds_view {info : HNode → HCtx} (hi : InfoOk info) (n : HNode) :
    ∀ (ps : List HNode) {c : HCtx}, c.Ok →
      c.view.Le (meetPreds info n c ps).view ∧
      ∀ p, p ∈ ps → p ≠ n → ∀ k, OLe ((info p).view.r k) ((meetPreds info n c ps).view.r k)
  | [], c, _ => ⟨.refl _, fun p hp => by cases hp⟩
  | q :: ps, c, hc => by
    unfold meetPreds
    have h1 : (if q = n then c else c.meet (info q)).Ok := by
      split
      · exact hc
      · exact (hc.meet (hi q)).1
    have h2 : c.view.Le (if q = n then c else c.meet (info q)).view := by
      split
      · exact .refl _
      · rw [view_meet hc (hi q)]; exact join_left hc.view (hi q).view
    obtain ⟨h3, h4⟩ := meetPreds_view hi n ps h1
    refine ⟨h2.trans h3, fun p hp hpn k => ?_⟩
    rcases List.mem_cons.1 hp with rfl | hp
    · refine OLe.trans ?_ (h3.r k)
      rw [if_neg hpn, view_meet hc (hi p)]
      exact join_right hc.view (hi p).view k
    · exact h4 p hp hpn k

/-- New facts are above the old ones. -/
theorem newFact_above {I : HeapIn} {info : HNode → HCtx} (hi : InfoOk info) {n : HNode}
    (hs : SettledAt I n (info n).view) (ps : List HNode) :
    (info n).view.Le (newFact I info n ps).view := by
  have h1 := (meetPreds_view hi n ps (hi n)).1
  have h2 := (meetPreds_ok hi n ps (hi n)).1
  unfold newFact
  rw [transferAt_eff, view_run (effAt_ok I n) h2]
  rcases hs with hf | hc
  · exact fresh_above hf h1
  · exact act_above hc h1

theorem newFact_settled {I : HeapIn} {info : HNode → HCtx} (hi : InfoOk info) (n : HNode)
    (ps : List HNode) : SettledAt I n (newFact I info n ps).view := by
  have h2 := (meetPreds_ok hi n ps (hi n)).1
  unfold newFact
  rw [transferAt_eff, view_run (effAt_ok I n) h2]
  exact .inr (act_idem _ _)

end Verif
