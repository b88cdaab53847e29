import Verif.Heap

/-!
Lemmas about the heap analysis: the shape of the locations which occur, and contexts seen as
functions.
-/

namespace Verif

variable {κ : Type} [DecidableEq κ]

/-! ## Maps -/

theorem amGet_amSet (m : List (κ × ALoc)) (k k' : κ) (v : ALoc) :
    amGet (amSet m k v) k' = if k = k' then some v else amGet m k' := by
  induction m with
  | nil => simp [amSet, amGet]
  | cons p m ih =>
    obtain ⟨j, w⟩ := p
    simp only [amSet]
    by_cases e : j = k
    · subst e; rw [if_pos rfl]; simp only [amGet]; split <;> rfl
    · rw [if_neg e]
      simp only [amGet, ih]
      by_cases e1 : j = k'
      · subst e1; rw [if_pos rfl, if_neg (fun h => e h.symm), if_pos rfl]
      · rw [if_neg e1, if_neg e1]

theorem amGet_append (m1 m2 : List (κ × ALoc)) (k : κ) :
    amGet (m1 ++ m2) k = (amGet m1 k).or (amGet m2 k) := by
  induction m1 with
  | nil => simp [amGet]
  | cons p m ih =>
    obtain ⟨j, w⟩ := p
    simp only [List.cons_append, amGet]
    split
    · rfl
    · exact ih

theorem amGet_map (m : List (κ × ALoc)) (g : κ → ALoc → ALoc) (k : κ) :
    amGet (m.map (fun p => (p.1, g p.1 p.2))) k = (amGet m k).map (g k) := by
  induction m with
  | nil => rfl
  | cons p m ih =>
    obtain ⟨j, w⟩ := p
    simp only [List.map_cons, amGet]
    by_cases e : j = k
    · subst e; simp
    · rw [if_neg e, if_neg e]; exact ih

theorem amGet_filter (m : List (κ × ALoc)) (q : κ → Bool) (k : κ) :
    amGet (m.filter (fun p => q p.1)) k = if q k then amGet m k else none := by
  induction m with
  | nil => simp [amGet]
  | cons p m ih =>
    obtain ⟨j, w⟩ := p
    simp only [List.filter_cons]
    by_cases hq : q j = true
    · rw [if_pos hq]
      simp only [amGet]
      by_cases e : j = k
      · subst e; simp [hq]
      · rw [if_neg e, if_neg e]; exact ih
    · rw [if_neg hq, ih]
      simp only [amGet]
      by_cases e : j = k
      · subst e; simp [hq]
      · rw [if_neg e]

theorem amGet_pointMeet (m1 m2 : List (κ × ALoc)) (k : κ) :
    amGet (pointMeet m1 m2) k = match amGet m1 k, amGet m2 k with
      | some v, some w => some (v.meet w)
      | some v, none => some v
      | none, some w => some w.copy
      | none, none => none := by
  unfold pointMeet
  rw [amGet_append, amGet_map m1 (fun k v => v.meetOpt (amGet m2 k)), amGet_map _ (fun _ v => v.copy), amGet_filter m2 (fun k => (amGet m1 k).isNone)]
  cases amGet m1 k <;> cases amGet m2 k <;> simp [ALoc.meetOpt]

theorem amGet_isSome {m : List (κ × ALoc)} {p : κ × ALoc} (h : p ∈ m) :
    ∃ v, amGet m p.1 = some v := by
  induction m with
  | nil => cases h
  | cons q m ih =>
    obtain ⟨j, w⟩ := q
    simp only [amGet]
    split
    · exact ⟨_, rfl⟩
    · rename_i e
      rcases List.mem_cons.1 h with rfl | h
      · exact absurd rfl e
      · exact ih h

theorem amGet_mem {m : List (κ × ALoc)} {k : κ} {v : ALoc} (h : amGet m k = some v) :
    (k, v) ∈ m := by
  induction m with
  | nil => cases h
  | cons q m ih =>
    obtain ⟨j, w⟩ := q
    simp only [amGet] at h
    split at h
    · rename_i e; subst e; cases h; exact List.mem_cons_self
    · exact List.mem_cons_of_mem _ (ih h)

/-! ## Shapes -/

/-- What a register holds: a type other than STACK. -/
def FlatV (v : ALoc) : Prop := ∃ t, t ≠ .stack ∧ v = .flat t

/-- What a stack slot holds: itself, with at most one level below it. -/
def SlotV (h : Int) (v : ALoc) : Prop :=
  v = .stackAt h ∨ ∃ t, t ≠ .stack ∧ v = .ptr .stack h (.flat t)

/-- The join of types other than STACK. -/
def tjoin (t o : Loc) : Loc :=
  if t = .top ∨ o = .top then .top
  else if t = .bottom then o
  else if o = .bottom then t
  else if o = t then t
  else .heapOrArg

theorem flat_meet {t o : Loc} (ht : t ≠ .stack) (ho : o ≠ .stack) :
    (ALoc.flat t).meet (.flat o) = .flat (tjoin t o) ∧ (ALoc.flat t).meetOk (.flat o) = true ∧
      tjoin t o ≠ .stack := by
  revert ht ho; cases t <;> cases o <;> decide

theorem slot_meet_null (h : Int) {w : ALoc} (hw : SlotV h w) :
    (ALoc.stackAt h).meet w = .stackAt h ∧ (ALoc.stackAt h).meetOk w = true := by
  rcases hw with rfl | ⟨t, _, rfl⟩ <;>
    simp [ALoc.stackAt, ALoc.meet, ALoc.meetHead, ALoc.meetOk, ALoc.meetHeadOk, ALoc.type,
      ALoc.height]

theorem slot_meet_ptr (h : Int) {t : Loc} (ht : t ≠ .stack) {w : ALoc} (hw : SlotV h w) :
    (ALoc.ptr .stack h (.flat t)).meet w =
      .ptr .stack h (.flat (tjoin t w.pointTo.type)) ∧
    (ALoc.ptr .stack h (.flat t)).meetOk w = true ∧ tjoin t w.pointTo.type ≠ .stack := by
  rcases hw with rfl | ⟨o, ho, rfl⟩
  · obtain ⟨h1, h2, h3⟩ := flat_meet ht (o := .top) (by decide)
    refine ⟨?_, ?_, h3⟩
    · simp [ALoc.stackAt, ALoc.meet, ALoc.meetHead, ALoc.type, ALoc.height, ALoc.pointTo] at h1 ⊢
      simpa [ALoc.flat, ALoc.meet, ALoc.type] using h1
    · simp [ALoc.stackAt, ALoc.meetOk, ALoc.meetHeadOk, ALoc.type, ALoc.height, ALoc.pointTo,
        ALoc.pointToOk]
      exact h2
  · obtain ⟨h1, h2, h3⟩ := flat_meet ht ho
    refine ⟨?_, ?_, h3⟩
    · have e : (ALoc.ptr .stack h (.flat o)).pointTo = .flat o := rfl
      rw [e, show (ALoc.flat o).type = o from rfl, ← h1]
      rw [show (ALoc.ptr .stack h (.flat t)).meet (ALoc.ptr .stack h (.flat o)) =
        ALoc.meetHead .stack h (ALoc.ptr .stack h (.flat t))
          (fun p => .ptr .stack h ((ALoc.flat t).meet p)) (ALoc.ptr .stack h (.flat o)) from rfl]
      simp [ALoc.meetHead, ALoc.type, ALoc.height, e]
    · rw [show (ALoc.ptr .stack h (.flat t)).meetOk (ALoc.ptr .stack h (.flat o)) =
        ALoc.meetHeadOk .stack h (fun o => o.pointToOk && (ALoc.flat t).meetOk o.pointTo)
          (ALoc.ptr .stack h (.flat o)) from rfl]
      simp only [ALoc.meetHeadOk, ALoc.type, ALoc.height]
      simp
      exact ⟨rfl, h2⟩

theorem FlatV.copy {v : ALoc} (h : FlatV v) : v.copy = v ∧ v.assign = v ∧ v.copyOk = true ∧
    v.assignOk = true := by
  obtain ⟨t, _, rfl⟩ := h; exact ⟨rfl, rfl, rfl, rfl⟩

theorem SlotV.copy {h : Int} {v : ALoc} (hv : SlotV h v) : v.copy = v ∧ v.copyOk = true ∧
    v.pointToOk = true ∧ FlatV v.pointTo ∧ v.type = .stack ∧ v.height = h ∧
    v.assignOk = true := by
  rcases hv with rfl | ⟨t, ht, rfl⟩
  · exact ⟨rfl, rfl, rfl, ⟨_, by decide, rfl⟩, rfl, rfl, rfl⟩
  · exact ⟨rfl, rfl, rfl, ⟨t, ht, rfl⟩, rfl, rfl, rfl⟩

theorem FlatV.meet {v w : ALoc} (hv : FlatV v) (hw : FlatV w) :
    FlatV (v.meet w) ∧ v.meetOk w = true := by
  obtain ⟨t, ht, rfl⟩ := hv
  obtain ⟨o, ho, rfl⟩ := hw
  obtain ⟨h1, h2, h3⟩ := flat_meet ht ho
  exact ⟨⟨_, h3, h1⟩, h2⟩

theorem SlotV.meet {h : Int} {v w : ALoc} (hv : SlotV h v) (hw : SlotV h w) :
    SlotV h (v.meet w) ∧ v.meetOk w = true := by
  rcases hv with rfl | ⟨t, ht, rfl⟩
  · obtain ⟨h1, h2⟩ := slot_meet_null h hw
    exact ⟨.inl h1, h2⟩
  · obtain ⟨h1, h2, h3⟩ := slot_meet_ptr h ht hw
    exact ⟨.inr ⟨_, h3, h1⟩, h2⟩

/-- Every location in a context has the shape of its place. -/
structure HCtx.Ok (c : HCtx) : Prop where
  regs : ∀ k v, amGet c.regs k = some v → FlatV v
  stack : ∀ h v, amGet c.stack h = some v → SlotV h v

theorem HCtx.init_ok : HCtx.init.Ok := by
  constructor
  · intro k v h
    have := amGet_mem h
    simp only [HCtx.init, List.mem_map] at this
    obtain ⟨r, _, e⟩ := this
    cases e
    exact ⟨_, by decide, rfl⟩
  · intro h v e; cases e

theorem HCtx.Ok.meet {c d : HCtx} (hc : c.Ok) (hd : d.Ok) : (c.meet d).Ok ∧ c.meetOk d = true := by
  refine ⟨⟨?_, ?_⟩, ?_⟩
  · intro k v h
    simp only [HCtx.meet] at h
    rw [amGet_pointMeet] at h
    cases h1 : amGet c.regs k with
    | none =>
      cases h2 : amGet d.regs k with
      | none => simp [h1, h2] at h
      | some w =>
        simp [h1, h2] at h; subst h
        rw [(hd.regs _ _ h2).copy.1]; exact hd.regs _ _ h2
    | some u =>
      cases h2 : amGet d.regs k with
      | none => simp [h1, h2] at h; subst h; exact hc.regs _ _ h1
      | some w =>
        simp [h1, h2] at h; subst h
        exact ((hc.regs _ _ h1).meet (hd.regs _ _ h2)).1
  · intro k v h
    simp only [HCtx.meet] at h
    rw [amGet_pointMeet] at h
    cases h1 : amGet c.stack k with
    | none =>
      cases h2 : amGet d.stack k with
      | none => simp [h1, h2] at h
      | some w =>
        simp [h1, h2] at h; subst h
        rw [(hd.stack _ _ h2).copy.1]; exact hd.stack _ _ h2
    | some u =>
      cases h2 : amGet d.stack k with
      | none => simp [h1, h2] at h; subst h; exact hc.stack _ _ h1
      | some w =>
        simp [h1, h2] at h; subst h
        exact ((hc.stack _ _ h1).meet (hd.stack _ _ h2)).1
  · simp only [HCtx.meetOk, Bool.and_eq_true]
    constructor
    · refine List.all_eq_true.2 fun p _ => ?_
      cases h1 : amGet c.regs p.1 <;> cases h2 : amGet d.regs p.1
      · rfl
      · exact (hd.regs _ _ h2).copy.2.2.1
      · rfl
      · exact ((hc.regs _ _ h1).meet (hd.regs _ _ h2)).2
    · refine List.all_eq_true.2 fun p _ => ?_
      cases h1 : amGet c.stack p.1 <;> cases h2 : amGet d.stack p.1
      · rfl
      · exact (hd.stack _ _ h2).copy.2.1
      · rfl
      · exact ((hc.stack _ _ h1).meet (hd.stack _ _ h2)).2

theorem HCtx.Ok.reg {c : HCtx} (h : c.Ok) (k : RKey) : FlatV (c.reg k) := by
  unfold HCtx.reg
  cases e : amGet c.regs k with
  | none => exact ⟨.bottom, by decide, rfl⟩
  | some v => exact h.regs _ _ e

theorem HCtx.Ok.slot {c : HCtx} (hc : c.Ok) (h : Int) : SlotV h (c.slot h) := by
  unfold HCtx.slot
  cases e : amGet c.stack h with
  | none => exact .inl rfl
  | some v => exact hc.stack _ _ e

theorem HCtx.Ok.setReg {c : HCtx} (h : c.Ok) (k : RKey) {v : ALoc} (hv : FlatV v) :
    (c.setReg k v).Ok := by
  refine ⟨fun k' v' e => ?_, h.stack⟩
  simp only [HCtx.setReg] at e
  rw [amGet_amSet, hv.copy.2.1] at e
  split at e
  · cases e; exact hv
  · exact h.regs _ _ e

theorem HCtx.Ok.touch {c : HCtx} (h : c.Ok) (k : RKey) : (c.touch k).Ok := by
  refine ⟨fun k' v' e => ?_, h.stack⟩
  simp only [HCtx.touch] at e
  rw [amGet_amSet] at e
  split at e
  · cases e; exact h.reg k
  · exact h.regs _ _ e

theorem HCtx.Ok.setSlot {c : HCtx} (hc : c.Ok) (h : Int) {v : ALoc} (hv : SlotV h v) :
    (c.setSlot h v).Ok := by
  refine ⟨hc.regs, fun h' v' e => ?_⟩
  simp only [HCtx.setSlot] at e
  rw [amGet_amSet] at e
  split at e
  · rename_i e'; subst e'; cases e; exact hv
  · exact hc.stack _ _ e

theorem flat_top_ok : FlatV (.flat .top) := ⟨_, by decide, rfl⟩

theorem SlotV.setPointTo {h : Int} {v l : ALoc} (hv : SlotV h v) (hl : FlatV l) :
    SlotV h (v.setPointTo l) := by
  obtain ⟨_, _, _, _, h1, h2, _⟩ := hv.copy
  unfold ALoc.setPointTo
  rw [h1, h2]
  split
  · exact .inl rfl
  · obtain ⟨t, ht, rfl⟩ := hl
    exact .inr ⟨t, ht, rfl⟩

theorem setArgs_ok {c : HCtx} (h : c.Ok) : (setArgs c).Ok := by
  unfold setArgs
  generalize argRegs = l
  induction l generalizing c with
  | nil => exact h
  | cons r l ih =>
    rw [List.foldl_cons]
    refine ih ⟨fun k v e => ?_, h.stack⟩
    simp only at e
    rw [amGet_amSet] at e
    split at e
    · cases e
      obtain ⟨t, _, e⟩ := h.reg (some (.gpr r))
      rw [e]; exact ⟨.arg, by decide, rfl⟩
    · exact h.regs _ _ e

/-! ## Transfer functions as effects -/

/-- What an instruction does to a context. -/
inductive HEff where
  | skip
  | consts (l : List (RKey × Loc))
  | copy (d s : RKey)
  | load (d : RKey) (h : Int)
  | store (h : Int) (s : RKey)

/-- The effect on a context. -/
def HEff.run : HEff → HCtx → HCtx
  | .skip, c => c
  | .consts l, c => l.foldl (fun c p => c.setReg p.1 (.flat p.2)) c
  | .copy d s, c => (c.touch s).setReg d (c.reg s)
  | .load d h, c => (c.setSlot h (c.slot h)).setReg d (c.slot h).pointTo
  | .store h s, c => (c.touch s).setSlot h ((c.slot h).setPointTo (c.reg s))

/-- The written general purpose registers. -/
def unknownEff (ins : HInsn) : List (RKey × Loc) :=
  ins.written.filterMap (fun r => match r with
    | .gpr _ => some (some r, .top)
    | .other _ => none)

/-- The effect of an instruction of block `b`. -/
def effOf (I : HeapIn) (b : Blk) (ins : HInsn) : HEff :=
  match ins.op with
  | .other => .consts (unknownEff ins)
  | .call => .consts ([.rcx, .rdx, .rsi, .rdi, .r8, .r9, .r10, .r11].map
      (fun r => (some (.gpr r), .top)) ++ [(some (.gpr .rax), if setToHeap I b then .heap else .top)])
  | .lea => match operandRegs ins.op0 ins.op1 with
    | (some (.gpr d), some (.gpr s)) => .copy (some (.gpr d)) (some (.gpr s))
    | _ => .consts (unknownEff ins)
  | .mov =>
    let (d, s) := operandRegs ins.op0 ins.op1
    if d = none then .skip
    else if ins.readsMemory then
      match I.heights ins.addr with
      | some (src, _) => .load d src
      | none => .consts [(d, .top)]
    else if ins.writesMemory then
      match I.heights ins.addr with
      | some (_, dest) => .store dest s
      | none => .skip
    else if s ≠ none then .copy d s
    else .consts [(d, .top)]

theorem handleUnknown_eff (ins : HInsn) (c : HCtx) :
    handleUnknown ins c = (HEff.consts (unknownEff ins)).run c := by
  unfold handleUnknown HEff.run unknownEff
  generalize ins.written = l
  induction l generalizing c with
  | nil => rfl
  | cons r l ih =>
    rw [List.foldl_cons, ih, List.filterMap_cons]
    cases r <;> rfl

theorem transfer_eff (I : HeapIn) (b : Blk) (ins : HInsn) (c : HCtx) :
    transfer I b ins c = (effOf I b ins).run c := by
  unfold transfer effOf
  cases ins.op with
  | other => exact handleUnknown_eff ins c
  | call =>
    simp only [handleCall, HEff.run, List.foldl_append, List.foldl_map, List.foldl_cons,
      List.foldl_nil]
    by_cases h : setToHeap I b = true <;> simp [h]
  | lea =>
    simp only [handleLea]
    have h := handleUnknown_eff ins c
    generalize operandRegs ins.op0 ins.op1 = p
    obtain ⟨d, s⟩ := p
    rcases d with _ | ⟨d | d⟩ <;> rcases s with _ | ⟨s | s⟩ <;> first | exact h | rfl
  | mov =>
    simp only [handleMov]
    by_cases h1 : (operandRegs ins.op0 ins.op1).1 = none
    · rw [if_pos h1, if_pos h1]; rfl
    · rw [if_neg h1, if_neg h1]
      by_cases h2 : ins.readsMemory = true
      · rw [if_pos h2, if_pos h2]
        cases I.heights ins.addr <;> rfl
      · rw [if_neg h2, if_neg h2]
        by_cases h3 : ins.writesMemory = true
        · rw [if_pos h3, if_pos h3]
          cases I.heights ins.addr <;> rfl
        · rw [if_neg h3, if_neg h3]
          by_cases h4 : (operandRegs ins.op0 ins.op1).2 ≠ none
          · rw [if_pos h4, if_pos h4]; rfl
          · rw [if_neg h4, if_neg h4]; rfl

/-- Constants are not STACK. -/
def HEff.Ok : HEff → Prop
  | .consts l => ∀ p, p ∈ l → p.2 ≠ .stack
  | _ => True

theorem unknownEff_ok (ins : HInsn) : (HEff.consts (unknownEff ins)).Ok := by
  intro p hp
  simp only [unknownEff, List.mem_filterMap] at hp
  obtain ⟨r, _, h⟩ := hp
  cases r <;> simp at h
  subst h; exact Loc.noConfusion

theorem effOf_ok (I : HeapIn) (b : Blk) (ins : HInsn) : (effOf I b ins).Ok := by
  unfold effOf
  cases ins.op with
  | other => exact unknownEff_ok ins
  | call =>
    intro p hp
    rw [List.mem_append] at hp
    rcases hp with hp | hp
    · rw [List.mem_map] at hp; obtain ⟨r, _, rfl⟩ := hp; exact Loc.noConfusion
    · rw [List.mem_singleton] at hp; subst hp; dsimp only; split <;> decide
  | lea =>
    dsimp only
    split
    · trivial
    · exact unknownEff_ok ins
  | mov =>
    dsimp only
    have one : ∀ d, (HEff.consts [(d, .top)]).Ok := by
      intro d p hp; rw [List.mem_singleton] at hp; subst hp; exact Loc.noConfusion
    split
    · trivial
    · split
      · split
        · trivial
        · exact one _
      · split
        · split <;> trivial
        · split
          · trivial
          · exact one _

theorem consts_ok : ∀ {l : List (RKey × Loc)} {c : HCtx}, (∀ p, p ∈ l → p.2 ≠ .stack) → c.Ok →
    ((HEff.consts l).run c).Ok
  | [], _, _, hc => hc
  | p :: l, c, he, hc => by
    show ((HEff.consts l).run (c.setReg p.1 (.flat p.2))).Ok
    exact consts_ok (fun q hq => he q (List.mem_cons_of_mem _ hq))
      (hc.setReg _ ⟨_, he p List.mem_cons_self, rfl⟩)

theorem HEff.run_ok {e : HEff} (he : e.Ok) {c : HCtx} (hc : c.Ok) : (e.run c).Ok := by
  cases e with
  | skip => exact hc
  | consts l =>
    exact consts_ok he hc
  | copy d s => exact (hc.touch s).setReg d (hc.reg s)
  | load d h => exact (hc.setSlot h (hc.slot h)).setReg d (hc.slot h).copy.2.2.2.1
  | store h s => exact (hc.touch s).setSlot h ((hc.slot h).setPointTo (hc.reg s))

theorem transfer_ok (I : HeapIn) (b : Blk) (ins : HInsn) {c : HCtx} (hc : c.Ok) :
    (transfer I b ins c).Ok ∧ transferOk I ins c = true := by
  refine ⟨by rw [transfer_eff]; exact (effOf I b ins).run_ok (effOf_ok I b ins) hc, ?_⟩
  unfold transferOk
  cases ins.op with
  | other => rfl
  | call => rfl
  | lea => exact (hc.reg _).copy.2.2.2
  | mov =>
    simp only [Bool.and_eq_true]
    refine ⟨⟨(hc.reg _).copy.2.2.2, ?_⟩, ?_⟩
    · unfold ALoc.setPointToOk
      rw [(hc.reg _).copy.2.2.2]; simp
    · split
      · rename_i src _ _
        obtain ⟨_, _, h1, h2, _, _, h3⟩ := (hc.slot src).copy
        simp [h1, h2.copy.2.2.2, h3]
      · rfl

end Verif
