import Verif.HeapRun
import Verif.HeapTerm
import Verif.Props.HeapTerm

/-!
The facts of the heap analysis hold of runs, once the work lists have settled.
-/

namespace Verif

/-! ## What facts say about states -/

/-- The values of a type: besides those it names, values for which the analysis has none. -/
def Loc.Has (t : Loc) (v : PVal) : Prop :=
  v.Untracked ∨ t = .top ∨ (t = .heap ∧ v = .heap) ∨ (t = .arg ∧ v = .arg) ∨
    (t = .heapOrArg ∧ (v = .heap ∨ v = .arg))

/-- The entry for a slot admits the value. -/
def SlotHas : Option (Option Loc) → PVal → Prop
  | none, v => v.Untracked
  | some x, v => (content x).Has v

/-- The view admits the state, as far as slots which are loaded are concerned. -/
structure HView.Has (I : HeapIn) (v : HView) (s : PState) : Prop where
  r : ∀ r, ((v.r (some (.gpr r))).getD .bottom).Has (s.regs r)
  s : ∀ h, I.Loads h → SlotHas (v.s h) (s.slots h)

theorem Loc.has_mono {t o : Loc} {v : PVal} (h : LocLe t o) (hv : t.Has v) : o.Has v := by
  rcases hv with hv | hv | ⟨h1, h2⟩ | ⟨h1, h2⟩ | ⟨h1, h2⟩
  · exact .inl hv
  · subst hv
    have : o = .top := by revert h; cases o <;> decide
    exact .inr (.inl this)
  · subst h1 h2
    have : o = .heap ∨ o = .top ∨ o = .heapOrArg := by revert h; cases o <;> decide
    rcases this with rfl | rfl | rfl
    · exact .inr (.inr (.inl ⟨rfl, rfl⟩))
    · exact .inr (.inl rfl)
    · exact .inr (.inr (.inr (.inr ⟨rfl, .inl rfl⟩)))
  · subst h1 h2
    have : o = .arg ∨ o = .top ∨ o = .heapOrArg := by revert h; cases o <;> decide
    rcases this with rfl | rfl | rfl
    · exact .inr (.inr (.inr (.inl ⟨rfl, rfl⟩)))
    · exact .inr (.inl rfl)
    · exact .inr (.inr (.inr (.inr ⟨rfl, .inr rfl⟩)))
  · subst h1
    have : o = .top ∨ o = .heapOrArg := by revert h; cases o <;> decide
    rcases this with rfl | rfl
    · exact .inr (.inl rfl)
    · exact .inr (.inr (.inr (.inr ⟨rfl, h2⟩)))

theorem slotHas_mono {x y : Option (Option Loc)} {v : PVal} (h : SLe x y) (hv : SlotHas x v) :
    SlotHas y v := by
  cases h with
  | none =>
    cases y with
    | none => exact hv
    | some y => exact .inl hv
  | null => exact .inr (.inl rfl)
  | some h => exact Loc.has_mono h hv

theorem HView.Has.mono {I : HeapIn} {v w : HView} {s : PState} (h : v.Le w) (hv : v.Has I s) :
    w.Has I s :=
  ⟨fun r => Loc.has_mono (h.r _).getD (hv.r r), fun x hx => slotHas_mono (h.s x) (hv.s x hx)⟩

theorem has_join_right {I : HeapIn} {v w : HView} {s : PState} (hv : v.Ok) (hw : w.Ok)
    (h : w.Has I s) : (v.join w).Has I s := by
  refine ⟨fun r => Loc.has_mono (join_right hv hw _).getD (h.r r), fun x hx => ?_⟩
  have h1 := h.s x hx
  have o1 := hv.s x
  have o2 := hw.s x
  simp only [HView.join]
  rcases e1 : v.s x with _ | _ | t
  · exact h1
  · cases e2 : w.s x with
    | none => exact .inr (.inl rfl)
    | some y => exact .inr (.inl rfl)
  · cases e2 : w.s x with
    | none => rw [e2] at h1; exact .inl h1
    | some y =>
      rw [e2] at h1 o2
      rw [e1] at o1
      exact Loc.has_mono (tjoin_right t _ (fun e => o1 (by rw [e])) (content_ok o2)) h1

theorem meetPreds_has {I : HeapIn} {info : HNode → HCtx} (hi : InfoOk info) (n : HNode)
    {s : PState} : ∀ (ps : List HNode) {c : HCtx}, c.Ok →
      ((c.view.Has I s ∨ ∃ p, p ∈ ps ∧ p ≠ n ∧ (info p).view.Has I s) →
        (meetPreds info n c ps).view.Has I s)
  | [], c, _, h => by
    rcases h with h | ⟨p, hp, _⟩
    · exact h
    · cases hp
  | q :: ps, c, hc, h => by
    unfold meetPreds
    have h1 : (if q = n then c else c.meet (info q)).Ok := by
      split
      · exact hc
      · exact (hc.meet (hi q)).1
    refine meetPreds_has hi n ps h1 ?_
    rcases h with h | ⟨p, hp, hpn, h⟩
    · left
      split
      · exact h
      · rw [view_meet hc (hi q)]
        exact h.mono (join_left hc.view (hi q).view)
    · rcases List.mem_cons.1 hp with rfl | hp
      · left
        rw [if_neg hpn, view_meet hc (hi p)]
        exact has_join_right hc.view (hi p).view h
      · exact .inr ⟨p, hp, hpn, h⟩

/-! ## Operands -/

theorem apply_keeps : ∀ (e : HExpr) (v : RegVisitor) {b : HReg}, v.base = some b →
    (e.apply v).base = some b
  | .reg r, v, b, h => by
    unfold HExpr.apply
    split
    · exact h
    · rw [h]; exact h
  | .imm, v, b, h => h
  | .deref e, v, b, h => apply_keeps e v h
  | .bin _ l r, v, b, h => apply_keeps r _ (apply_keeps l v h)

theorem apply_pointer : ∀ (e : HExpr) (v : RegVisitor) {b : HReg}, v.base = none →
    (v.complex && !v.addFound) = false → e.pointer = some b → (e.apply v).base = some b
  | .reg r, v, b, h, hc, hp => by
    unfold HExpr.apply
    rw [hc, h]
    exact hp
  | .imm, v, b, h, hc, hp => by cases hp
  | .deref e, v, b, h, hc, hp => apply_pointer e v h hc hp
  | .bin _ l r, v, b, h, hc, hp => apply_keeps r _ (apply_pointer l v h hc hp)

/-! ## Instructions -/

theorem lastConst_mem {l : List (RKey × Loc)} {k : RKey} {t : Loc} (h : lastConst l k = some t) :
    (k, t) ∈ l := by
  induction l with
  | nil => cases h
  | cons p l ih =>
    rw [lastConst, List.foldl_cons, lastConst_go] at h
    cases e : lastConst l k with
    | some o =>
      rw [e] at h
      simp at h
      subst h
      exact List.mem_cons_of_mem _ (ih e)
    | none =>
      rw [e] at h
      simp at h
      obtain ⟨h1, h2⟩ := h
      rw [← h1, ← h2]; exact List.mem_cons_self

theorem lastConst_some {l : List (RKey × Loc)} {k : RKey} {t : Loc} (h : (k, t) ∈ l) :
    ∃ o, lastConst l k = some o := by
  induction l with
  | nil => cases h
  | cons p l ih =>
    rw [lastConst, List.foldl_cons, lastConst_go]
    rcases List.mem_cons.1 h with rfl | h
    · cases lastConst l k <;> simp
    · obtain ⟨o, ho⟩ := ih h
      rw [ho]; exact ⟨o, rfl⟩

/-- Constants: registers not mentioned keep their values. -/
theorem consts_has {I : HeapIn} {l : List (RKey × Loc)} {v : HView} {s s' : PState}
    (h : v.Has I s) (hs : ∀ x, I.Loads x → s'.slots x = s.slots x)
    (hr : ∀ r, (∀ t, (some (.gpr r), t) ∉ l) → s'.regs r = s.regs r)
    (hc : ∀ r t, (some (.gpr r), t) ∈ l → t.Has (s'.regs r)) :
    ((HEff.consts l).act v).Has I s' := by
  refine ⟨fun r => ?_, fun x hx => by rw [hs x hx]; exact h.s x hx⟩
  simp only [HEff.act]
  cases e : lastConst l (some (.gpr r)) with
  | some t => exact hc r t (lastConst_mem e)
  | none =>
    rw [hr r fun t ht => by
      obtain ⟨o, ho⟩ := lastConst_some ht
      rw [e] at ho; cases ho]
    exact h.r r

theorem top_has (v : PVal) : Loc.top.Has v := .inr (.inl rfl)

theorem unknownEff_mem {i : HInsn} {r : Reg} {t : Loc} :
    (some (HReg.gpr r), t) ∈ unknownEff i ↔ HReg.gpr r ∈ i.written ∧ t = .top := by
  unfold unknownEff
  rw [List.mem_filterMap]
  constructor
  · rintro ⟨q, hq, h⟩
    cases q with
    | gpr q => simp at h; exact ⟨by rw [← h.1]; exact hq, h.2.symm⟩
    | other n => simp at h
  · rintro ⟨h, rfl⟩
    exact ⟨_, h, rfl⟩

theorem unknown_has {I : HeapIn} {i : HInsn} {v : HView} {s s' : PState}
    (h : v.Has I s) (hs : ∀ x, I.Loads x → s'.slots x = s.slots x)
    (hr : ∀ r, HReg.gpr r ∉ i.written → s'.regs r = s.regs r) :
    ((HEff.consts (unknownEff i)).act v).Has I s' :=
  consts_has h hs (fun r hn => hr r fun hm => hn .top (unknownEff_mem.2 ⟨hm, rfl⟩))
    (fun r t ht => by rw [(unknownEff_mem.1 ht).2]; exact top_has _)

theorem copy_has {I : HeapIn} {d q : HReg} {v : HView} {s s' : PState} (h : v.Has I s)
    (hs : ∀ x, I.Loads x → s'.slots x = s.slots x) (hk : KeptBut d s s')
    (hv : ∀ r, d = .gpr r → (∃ p, q = .gpr p ∧ s'.regs r = s.regs p) ∨ (s'.regs r).Untracked) :
    ((HEff.copy (some d) (some q)).act v).Has I s' := by
  refine ⟨fun r => ?_, fun x hx => by rw [hs x hx]; exact h.s x hx⟩
  simp only [HEff.act]
  by_cases hd : d = .gpr r
  · subst hd
    rw [if_pos (.inl rfl)]
    rcases hv r rfl with ⟨p, rfl, hp⟩ | hu
    · rw [hp]; exact h.r p
    · exact .inl hu
  · have hkr := hk r (fun e => hd e.symm)
    by_cases hq : q = .gpr r
    · subst hq
      rw [if_pos (.inr rfl), hkr]
      exact h.r r
    · rw [if_neg (by
        rintro (e | e)
        · injection e with e; exact hd e.symm
        · injection e with e; exact hq e.symm), hkr]
      exact h.r r

theorem content_has {x : Option (Option Loc)} {v : PVal} (h : SlotHas x v) :
    (content (x.getD none)).Has v := by
  cases x with
  | none => exact .inl h
  | some x => exact h

/-- Every block has at most one call edge. -/
def OneCall (I : HeapIn) : Prop :=
  ∀ b e e', e ∈ I.co.targets b → e' ∈ I.co.targets b → e.type = .call → e'.type = .call → e = e'

theorem callTarget_from (I : HeapIn) (l : List Edge) (t : Nat) :
    l.foldl (fun t e => if e.type == .call && !e.sink then I.co.start e.trg else t) t = t ∨
    ∃ e, e ∈ l ∧ e.type = .call ∧ e.sink = false ∧
      l.foldl (fun t e => if e.type == .call && !e.sink then I.co.start e.trg else t) t =
        I.co.start e.trg := by
  induction l generalizing t with
  | nil => exact .inl rfl
  | cons e l ih =>
    rw [List.foldl_cons]
    rcases ih (if e.type == .call && !e.sink then I.co.start e.trg else t) with h | ⟨e', h1, h2⟩
    · rw [h]
      by_cases hc : (e.type == .call && !e.sink) = true
      · rw [if_pos hc]
        simp at hc
        exact .inr ⟨e, List.mem_cons_self, hc.1, hc.2, rfl⟩
      · rw [if_neg hc]; exact .inl rfl
    · exact .inr ⟨e', List.mem_cons_of_mem _ h1, h2⟩

theorem setToHeap_allocator {I : HeapIn} {b : Blk} (h : setToHeap I b = true) :
    ∃ e, e ∈ I.co.targets b ∧ e.type = .call ∧ IsAllocator I.co e := by
  unfold setToHeap at h
  rw [Bool.and_eq_true, bne_iff_ne] at h
  obtain ⟨h1, h2⟩ := h
  rcases callTarget_from I (I.co.targets b) 0 with h0 | ⟨e, he, ht, hs, h0⟩
  · exact absurd h0 h1
  refine ⟨e, he, ht, hs, ?_⟩
  unfold callTarget at h2
  rw [h0] at h2
  cases hl : I.co.linkage (I.co.start e.trg) with
  | none => rw [hl] at h2; cases h2
  | some name =>
    rw [hl] at h2
    simp only [Bool.or_eq_true, decide_eq_true_eq] at h2
    refine ⟨name, rfl, ?_⟩
    rcases h2 with h2 | h2
    · exact .inl h2
    · obtain ⟨l, hl⟩ := (strFind_zero _ _).1 h2
      exact .inr ⟨l, hl.symm⟩

theorem call_mem {r : Reg} {x : Loc}
    (h : ∀ t, (some (HReg.gpr r), t) ∉
      ([.rcx, .rdx, .rsi, .rdi, .r8, .r9, .r10, .r11].map fun r => (some (HReg.gpr r), Loc.top)) ++
        [(some (.gpr .rax), x)]) : r ∈ preserved := by
  have h1 := h .top
  have h2 := h x
  cases r <;> simp [preserved] at h1 h2 ⊢

/-- The effect of an instruction holds after it. -/
theorem step_has {I : HeapIn} (one : OneCall I) {n : HNode} (hb : n.1 ∈ I.co.blocks I.f)
    {s s' : PState} (hst : OStepAt I true n s s') {v : HView} (h : v.Has I s) :
    ((effAt I n).act v).Has I s' := by
  obtain ⟨i, hi, hst⟩ := hst
  have hmem : i ∈ I.insns n.1 := List.mem_of_getElem? hi
  unfold effAt
  rw [hi]
  dsimp only
  unfold effOf
  cases hst with
  | loadWord h1 h2 h3 h4 h5 h6 h7 h8 =>
    rename_i d e x y
    have hl : I.Loads x := ⟨n.1, i, y, hb, hmem, h1, h4, h5⟩
    rw [h1, h2, h3]
    dsimp only
    have : (operandRegs (some (.reg d)) (some (.deref e))).1 = some d := rfl
    rw [this, if_neg (by simp), if_pos h4, h5]
    dsimp only
    have hs : ∀ x, s'.slots x = s.slots x := fun x => h8 x (.inr rfl)
    refine ⟨fun r => ?_, fun z hz => ?_⟩
    · simp only [HEff.act]
      by_cases hd : d = .gpr r
      · rw [if_pos (by rw [hd]), h7 r hd]
        exact content_has (h.s x hl)
      · rw [if_neg (by intro e; injection e with e; exact hd e.symm), h6 r (fun e => hd e.symm)]
        exact h.r r
    · simp only [HEff.act]
      rw [hs]
      by_cases hz' : z = x
      · subst hz'
        rw [if_pos rfl]
        exact content_has (h.s z hl)
      · rw [if_neg hz']; exact h.s z hz
  | load h1 h2 h3 h4 h5 h6 h7 =>
    rename_i d e
    rw [h1, h2, h3]
    dsimp only
    have : (operandRegs (some (.reg d)) (some (.deref e))).1 = some d := rfl
    rw [this, if_neg (by simp), if_pos h4, h5]
    dsimp only
    refine consts_has h (fun x _ => h7 x (.inr rfl)) (fun r hr => h6 r fun e => ?_) (fun r t ht => ?_)
    · exact hr .top (by rw [e]; exact List.mem_cons_self)
    · rw [List.mem_singleton] at ht; injection ht with _ ht; rw [ht]; exact top_has _
  | move h1 h2 h3 h4 h5 h6 h7 h8 =>
    rename_i d q
    rw [h3] at h7
    rw [h1, h2, h3]
    dsimp only
    have : operandRegs (some (.reg d)) (some (.reg q)) = (some d, some q) := rfl
    rw [this]
    dsimp only
    rw [if_neg (by simp), if_neg (by simp [h4]), if_neg (by simp [h5]), if_pos (by simp)]
    refine copy_has h (fun x _ => h8 x (.inr rfl)) h6 fun r hr => ?_
    have := h7 r hr
    cases q with
    | gpr p => exact .inl ⟨p, rfl, this⟩
    | other n => right; rw [this]; trivial
  | imm h1 h2 h3 h4 h5 h6 h7 =>
    rename_i d
    rw [h1, h2, h3]
    dsimp only
    have : operandRegs (some (.reg d)) (some .imm) = (some d, none) := rfl
    rw [this]
    dsimp only
    rw [if_neg (by simp), if_neg (by simp [h4]), if_neg (by simp [h5]), if_neg (by simp)]
    refine consts_has h (fun x _ => h7 x (.inr rfl)) (fun r hr => h6 r fun e => ?_) (fun r t ht => ?_)
    · exact hr .top (by rw [e]; exact List.mem_cons_self)
    · rw [List.mem_singleton] at ht; injection ht with _ ht; rw [ht]; exact top_has _
  | storeWord h1 h2 h3 h4 h5 h6 h7 h8 h9 h10 =>
    rename_i e p x y
    obtain ⟨k, hk, hsrc⟩ : ∃ k, operandRegs i.op0 i.op1 = (some p, k) ∧
        ((∃ r, k = some (.gpr r) ∧ s.source i.op1 = s.regs r) ∨ (s.source i.op1).Untracked) := by
      rw [h2]
      rcases h4 with h4 | ⟨r, h4⟩
      · rw [h4]
        refine ⟨none, ?_, .inr trivial⟩
        rcases h3 with rfl | ⟨z, rfl⟩
        · rfl
        · unfold operandRegs parseOperand
          dsimp only
          rw [apply_pointer (.deref (.bin true (.reg p) z)) {} rfl rfl rfl]
          rfl
      · rw [h4]
        refine ⟨some r, ?_, ?_⟩
        · rcases h3 with rfl | ⟨z, rfl⟩
          · rfl
          · unfold operandRegs parseOperand
            dsimp only
            rw [apply_pointer (.deref (.bin true (.reg p) z)) {} rfl rfl rfl]
            refine Prod.ext rfl ?_
            refine apply_pointer (.reg r) _ rfl ?_ rfl
            simp [HExpr.apply]
        · cases r with
          | gpr r => exact .inl ⟨r, rfl, rfl⟩
          | other m => exact .inr trivial
    rw [h1]
    dsimp only
    rw [hk]
    dsimp only
    rw [if_neg (by simp), if_neg (by simp [h5]), if_pos h6, h7]
    dsimp only
    have hval : ((v.r k).getD .bottom).Has (s.source i.op1) := by
      rcases hsrc with ⟨r, rfl, e⟩ | hu
      · rw [e]; exact h.r r
      · exact .inl hu
    refine ⟨fun r => ?_, fun z hz => ?_⟩
    · simp only [HEff.act]
      rw [h8]
      by_cases hr : some (HReg.gpr r) = k
      · rw [if_pos hr, ← hr]; exact h.r r
      · rw [if_neg hr]; exact h.r r
    · simp only [HEff.act]
      by_cases hz' : z = x
      · subst hz'
        rw [if_pos rfl, h9]
        split
        · exact top_has _
        · exact hval
      · rw [if_neg hz', h10 z hz']
        exact h.s z hz
  | store h1 h2 h3 h4 h5 h6 h7 =>
    rw [h1]
    dsimp only
    have hsame : v.Has I s' :=
      ⟨fun r => by rw [h6]; exact h.r r, fun x hx => by rw [h7 x (.inl ⟨rfl, hx⟩)]; exact h.s x hx⟩
    split
    · exact hsame
    · simp only [h3, h5]
      exact hsame
  | lea h1 h2 h3 h4 h5 h6 h7 =>
    rename_i d e p
    rw [h1, h2, h3]
    dsimp only
    have : operandRegs (some (.reg (.gpr d))) (some e) = (some (.gpr d), some (.gpr p)) := by
      unfold operandRegs parseOperand
      dsimp only
      exact Prod.ext rfl (apply_pointer e _ rfl rfl h4)
    rw [this]
    dsimp only
    refine copy_has h (fun x _ => h7 x (.inr rfl)) h5 fun r hr => ?_
    injection hr with hr; subst hr
    exact .inl ⟨p, rfl, h6⟩
  | leaOther h1 h2 h3 h4 h5 h6 h7 =>
    rename_i d e
    rw [h1, h2, h3]
    dsimp only
    have hu := unknown_has (i := i) h (fun x _ => h7 x (.inr rfl))
      (fun r hr => h6 r fun e => hr (by rw [e]; exact h5))
    obtain ⟨k, hk, hk2⟩ : ∃ k, operandRegs (some (.reg (.gpr d))) (some e) = (some (.gpr d), k) ∧
        ∀ p, k ≠ some (.gpr p) := by
      rcases h4 with rfl | ⟨n, h4⟩
      · exact ⟨none, rfl, fun p => by simp⟩
      · refine ⟨some (.other n), ?_, fun p => by simp⟩
        unfold operandRegs parseOperand
        dsimp only
        exact Prod.ext rfl (apply_pointer e _ rfl rfl h4)
    rw [hk]
    rcases k with _ | ⟨p | p⟩
    · exact hu
    · exact absurd rfl (hk2 p)
    · exact hu
  | call h1 h2 h3 h4 h5 h6 =>
    rename_i e
    rw [h1]
    dsimp only
    refine consts_has h (fun x hx => h6 x (.inl ⟨rfl, hx⟩)) (fun r hr => h5 r ?_) (fun r t ht => ?_)
    · exact call_mem hr
    · rw [List.mem_append] at ht
      rcases ht with ht | ht
      · rw [List.mem_map] at ht
        obtain ⟨q, _, e⟩ := ht
        injection e with _ e; rw [← e]; exact top_has _
      · rw [List.mem_singleton] at ht
        injection ht with e1 e2
        injection e1 with e1; injection e1 with e1
        subst e1 e2
        by_cases hset : setToHeap I n.1 = true
        · rw [if_pos hset]
          obtain ⟨e', k1, k2, k3⟩ := setToHeap_allocator hset
          rw [one n.1 e' e k1 h2 k2 h3] at k3
          exact .inr (.inr (.inl ⟨rfl, h4 k3⟩))
        · rw [if_neg hset]; exact top_has _
  | callOther h1 h2 h3 h4 =>
    rw [h1]
    dsimp only
    have hset : setToHeap I n.1 = false := by
      cases hs : setToHeap I n.1 with
      | false => rfl
      | true =>
        obtain ⟨e', k1, k2, k3⟩ := setToHeap_allocator hs
        exact absurd k2 (h2 e' k1)
    rw [hset]
    refine consts_has h (fun x hx => h4 x (.inl ⟨rfl, hx⟩)) (fun r hr => h3 r ?_) (fun r t ht => ?_)
    · exact call_mem hr
    · rw [List.mem_append] at ht
      rcases ht with ht | ht
      · rw [List.mem_map] at ht
        obtain ⟨q, _, e⟩ := ht
        injection e with _ e; rw [← e]; exact top_has _
      · rw [List.mem_singleton] at ht
        injection ht with _ e2
        rw [e2]; exact top_has _
  | other h1 h2 h3 =>
    rw [h1]
    exact unknown_has h (fun x hx => h3 x (.inl ⟨rfl, hx⟩)) h2

/-! ## The loop -/

/-- Intraprocedural edges are among the sources of their targets. -/
def SourcesOk (I : HeapIn) : Prop :=
  ∀ b e, b ∈ I.co.blocks I.f → e ∈ I.co.targets b → e.interproc = false → e.type ≠ .catch →
    e.trg ∈ I.co.blocks I.f → e.src = b ∧ e ∈ I.sources e.trg

/-- Control does not come back to the entry block, and it has no edge to itself at all. -/
def EntryOnce (I : HeapIn) : Prop :=
  ∀ b e, b ∈ I.co.blocks I.f → e ∈ I.co.targets b → e.trg = I.co.entry I.f →
    b ≠ I.co.entry I.f ∧ (e.interproc = true ∨ e.type = .catch)

/-- The context of `m` covers what happens when control comes from `n`. -/
def EdgeOk (I : HeapIn) (info : HNode → HCtx) (n m : HNode) : Prop :=
  ∀ s s', (info n).view.Has I s → OStepAt I true m s s' → (info m).view.Has I s'

/-- The context has not been visited. -/
def IsFresh (info : HNode → HCtx) (n : HNode) : Prop := (info n).view = HCtx.init.view

/-- A work item for a context comes with all its predecessors. -/
structure ItemOk (I : HeapIn) (comp : List Blk) (p : HNode × List HNode) : Prop where
  mem : p.1.1 ∈ comp
  ne : p.1 ≠ entryNode I
  preds : ∀ n, HFlow I n p.1 → n ∈ p.2

theorem flow_target {I : HeapIn} {n m : HNode} (h : HFlow I n m) : m.1 ∈ I.co.blocks I.f := by
  cases h with
  | next h _ => exact h
  | edge _ _ _ _ h => exact h

theorem flow_ne_entry {I : HeapIn} (once : EntryOnce I) {n m : HNode} (h : HFlow I n m) :
    m ≠ entryNode I := by
  intro e
  cases h with
  | next _ _ => injection e with _ e; cases e
  | edge h1 h2 h3 h4 _ =>
    injection e with e _
    rcases (once _ _ h1 h2 e).2 with h | h
    · rw [h3] at h; cases h
    · exact h4 h

theorem updateWork_item {I : HeapIn} (wf : I.Wf) (src : SourcesOk I) {comp : List Blk} {b : Blk}
    (hb : b ∈ comp) (hne : b ≠ I.co.entry I.f) (st : HState) :
    ∃ ps, updateWork I st b = { st with work := st.work ++ [((b, 0), ps)] } ∧
      ItemOk I comp ((b, 0), ps) := by
  unfold updateWork
  rw [if_neg hne]
  refine ⟨_, rfl, hb, fun e => hne (by injection e), fun n hn => ?_⟩
  rw [wf.2]
  generalize hm : ((b, 0), I.order (predNodes I b)).1 = m at hn
  cases hn with
  | next _ _ => injection hm with _ hm; cases hm
  | edge h1 h2 h3 h4 h5 =>
    rename_i b' e
    injection hm with hm _
    subst hm
    obtain ⟨k1, k2⟩ := src _ _ h1 h2 h3 h4 h5
    unfold predNodes
    rw [List.mem_map]
    refine ⟨e, List.mem_filter.2 ⟨k2, ?_⟩, by rw [k1]⟩
    rw [k1]
    simp [h3, h4, h1]

theorem foldWork_items {I : HeapIn} (wf : I.Wf) (src : SourcesOk I) {comp : List Blk} (l : List Edge)
    (hl : ∀ e, e ∈ l → e.trg ∈ comp → e.trg ≠ I.co.entry I.f) (st : HState) :
    ∃ ext, l.foldl (fun st e => if e.trg ∈ comp then updateWork I st e.trg else st) st =
        { st with work := st.work ++ ext } ∧ (∀ p, p ∈ ext → ItemOk I comp p) ∧
      ∀ e, e ∈ l → e.trg ∈ comp → ∃ ps, ((e.trg, 0), ps) ∈ ext := by
  induction l generalizing st with
  | nil => exact ⟨[], by simp, by simp, by simp⟩
  | cons e l ih =>
    rw [List.foldl_cons]
    have hl' := fun x hx => hl x (List.mem_cons_of_mem _ hx)
    by_cases hc : e.trg ∈ comp
    · rw [if_pos hc]
      obtain ⟨ps, h1, h2⟩ := updateWork_item wf src hc (hl e List.mem_cons_self hc) st
      rw [h1]
      obtain ⟨ext, h3, h4, h5⟩ := ih hl' { st with work := st.work ++ [((e.trg, 0), ps)] }
      refine ⟨((e.trg, 0), ps) :: ext, by rw [h3]; simp, fun p hp => ?_, fun x hx hxc => ?_⟩
      · rcases List.mem_cons.1 hp with rfl | hp
        · exact h2
        · exact h4 p hp
      · rcases List.mem_cons.1 hx with rfl | hx
        · exact ⟨ps, List.mem_cons_self⟩
        · obtain ⟨qs, hq⟩ := h5 x hx hxc
          exact ⟨qs, List.mem_cons_of_mem _ hq⟩
    · rw [if_neg hc]
      obtain ⟨ext, h3, h4, h5⟩ := ih hl' st
      refine ⟨ext, h3, h4, fun x hx hxc => ?_⟩
      rcases List.mem_cons.1 hx with rfl | hx
      · exact absurd hxc hc
      · exact h5 x hx hxc

/-- The entry is not entered again from within a component. -/
def NoReenter (I : HeapIn) (comp : List Blk) : Prop :=
  ∀ b e, b ∈ comp → e ∈ I.co.targets b → e.trg ∈ comp → e.trg ≠ I.co.entry I.f

theorem pushNext_items {I : HeapIn} (wf : I.Wf) (src : SourcesOk I) {comp : List Blk}
    (nr : NoReenter I comp) {n : HNode} (hn : n.1 ∈ comp) (st : HState) :
    ∃ ext, pushNext I comp n st = { st with work := st.work ++ ext } ∧
      (∀ p, p ∈ ext → ItemOk I comp p) ∧
      ∀ m, HFlow I n m → m.1 ∈ comp → ∃ ps, (m, ps) ∈ ext := by
  unfold pushNext
  split
  · rename_i hl
    refine ⟨_, rfl, fun p hp => ?_, fun m hm _ => ?_⟩
    · rw [List.mem_singleton] at hp
      subst hp
      refine ⟨hn, fun e => (by injection e with _ e; cases e), fun x hx => ?_⟩
      generalize hm : ((n.1, n.2 + 1), [n]).1 = m at hx
      cases hx with
      | next _ _ =>
        injection hm with h1 h2
        rw [List.mem_singleton]
        refine Prod.ext h1.symm ?_
        show _ = n.2
        omega
      | edge _ _ _ _ _ => injection hm with _ h2; cases h2
    · cases hm with
      | next _ _ => exact ⟨_, List.mem_singleton.2 rfl⟩
      | edge _ _ _ _ _ =>
        exfalso
        dsimp only at hl
        omega
  · rename_i hl
    obtain ⟨ext, h1, h2, h3⟩ := foldWork_items wf src (I.co.targets n.1)
      (fun e he hc => nr n.1 e hn he hc) st
    refine ⟨ext, h1, h2, fun m hm hc => ?_⟩
    cases hm with
    | next _ h => exact absurd h hl
    | edge _ he _ _ _ => exact h3 _ he hc

/-- What holds in the loop of a component. -/
structure SoundInv (I : HeapIn) (comp : List Blk) (base : HNode → HCtx) (st : HState) : Prop where
  ok : InfoOk st.info
  stable : ∀ m, IsFresh st.info m ∨ (effAt I m).act (st.info m).view = (st.info m).view
  out : ∀ m, m.1 ∉ comp → st.info m = base m
  entry : st.info (entryNode I) = base (entryNode I)
  work : ∀ p, p ∈ st.work → ItemOk I comp p
  edges : ∀ n m, HFlow I n m → m.1 ∈ comp → EdgeOk I st.info n m ∨ (∃ ps, (m, ps) ∈ st.work) ∨
    (n ≠ entryNode I ∧ IsFresh st.info n) ∨ IsFresh st.info m

theorem newFact_view {I : HeapIn} {info : HNode → HCtx} (hi : InfoOk info) (n : HNode)
    (ps : List HNode) :
    (newFact I info n ps).view = (effAt I n).act (meetPreds info n (info n) ps).view := by
  unfold newFact
  rw [transferAt_eff, view_run (effAt_ok I n) (meetPreds_ok hi n ps (hi n)).1]

theorem SoundInv.step {I : HeapIn} (wf : I.Wf) (src : SourcesOk I) (one : OneCall I)
    {comp : List Blk} (nr : NoReenter I comp) {base : HNode → HCtx} {st st' : HState}
    (h : SoundInv I comp base st) (hst : heapStep I comp st = some st') :
    SoundInv I comp base st' := by
  unfold heapStep at hst
  cases hw : st.work with
  | nil => rw [hw] at hst; cases hst
  | cons p rest =>
    obtain ⟨m, ps⟩ := p
    rw [hw] at hst
    simp only [Option.some.injEq] at hst
    have hitem : ItemOk I comp (m, ps) := h.work _ (by rw [hw]; exact List.mem_cons_self)
    have hmc : m.1 ∈ comp := hitem.mem
    have hcok := newFact_ok (I := I) h.ok m ps
    -- the contexts after the iteration
    obtain ⟨ext, he, hext, hcov⟩ : ∃ ext,
        st' = ⟨fun x => if x = m then newFact I st.info m ps else st.info x, rest ++ ext⟩ ∧
        (∀ p, p ∈ ext → ItemOk I comp p) ∧
        ((st.info m).view = (newFact I st.info m ps).view ∨
          ∀ k, HFlow I m k → k.1 ∈ comp → ∃ qs, (k, qs) ∈ ext) := by
      by_cases hs : HCtx.same (st.info m) (newFact I st.info m ps) = true
      · rw [if_pos hs] at hst
        refine ⟨[], ?_, by simp, .inl ((same_iff (h.ok m) hcok).1 hs)⟩
        rw [← hst]; simp [HState.setCtx]
      · rw [if_neg hs] at hst
        obtain ⟨ext, h1, h2, h3⟩ := pushNext_items wf src nr hmc
          { (st.setCtx m (newFact I st.info m ps)) with work := rest }
        exact ⟨ext, by rw [← hst, h1]; rfl, h2, .inr h3⟩
    subst he
    have hself : (newFact I st.info m ps).view = (effAt I m).act (newFact I st.info m ps).view := by
      rw [newFact_view h.ok]; exact (act_idem _ _).symm
    constructor
    · intro x
      dsimp only
      split
      · exact hcok
      · exact h.ok x
    · intro x
      unfold IsFresh
      dsimp only
      by_cases hx : x = m
      · subst hx; rw [if_pos rfl]; exact .inr hself.symm
      · rw [if_neg hx]; exact h.stable x
    · intro x hx
      dsimp only
      rw [if_neg (fun e => hx (by rw [e]; exact hmc))]
      exact h.out x hx
    · dsimp only
      rw [if_neg (fun e => hitem.ne e.symm)]
      exact h.entry
    · intro p hp
      rcases List.mem_append.1 hp with hp | hp
      · exact h.work p (by rw [hw]; exact List.mem_cons_of_mem _ hp)
      · exact hext p hp
    · intro n k hf hk
      by_cases hkm : k = m
      · subst hkm
        left
        intro s s' hs hstep
        have hb : k.1 ∈ I.co.blocks I.f := flow_target hf
        dsimp only at hs ⊢
        rw [if_pos rfl]
        by_cases hn : n = k
        · subst hn
          rw [if_pos rfl] at hs
          rw [hself]
          exact step_has one hb hstep hs
        · rw [if_neg hn] at hs
          rw [newFact_view h.ok]
          exact step_has one hb hstep
            (meetPreds_has h.ok k ps (h.ok k) (.inr ⟨n, hitem.preds n hf, hn, hs⟩))
      · have hold : (∃ qs, (k, qs) ∈ st.work) → ∃ qs, (k, qs) ∈ rest ++ ext := by
          rintro ⟨qs, hq⟩
          rw [hw] at hq
          rcases List.mem_cons.1 hq with e | hq
          · injection e with e _; exact absurd e hkm
          · exact ⟨qs, List.mem_append_left _ hq⟩
        have hview : ∀ x, (st.info m).view = (newFact I st.info m ps).view →
            (if x = m then newFact I st.info m ps else st.info x).view = (st.info x).view := by
          intro x hx
          by_cases e : x = m
          · subst e; rw [if_pos rfl, hx]
          · rw [if_neg e]
        by_cases hn : n = m
        · subst hn
          rcases hcov with hcov | hcov
          · rcases h.edges n k hf hk with h1 | h1 | h1 | h1
            · left
              intro s s' hs hstep
              dsimp only at hs ⊢
              rw [hview _ hcov] at hs ⊢
              exact h1 s s' hs hstep
            · exact .inr (.inl (hold h1))
            · exact .inr (.inr (.inl ⟨h1.1, by unfold IsFresh; dsimp only; rw [hview _ hcov]; exact h1.2⟩))
            · exact .inr (.inr (.inr (by unfold IsFresh; dsimp only; rw [hview _ hcov]; exact h1)))
          · obtain ⟨qs, hq⟩ := hcov k hf hk
            exact .inr (.inl ⟨qs, List.mem_append_right _ hq⟩)
        · rcases h.edges n k hf hk with h1 | h1 | h1 | h1
          · left
            intro s s' hs hstep
            dsimp only at hs ⊢
            rw [if_neg hn] at hs
            rw [if_neg hkm]
            exact h1 s s' hs hstep
          · exact .inr (.inl (hold h1))
          · exact .inr (.inr (.inl ⟨h1.1, by unfold IsFresh; dsimp only; rw [if_neg hn]; exact h1.2⟩))
          · exact .inr (.inr (.inr (by unfold IsFresh; dsimp only; rw [if_neg hkm]; exact h1)))

theorem SoundInv.steps {I : HeapIn} (wf : I.Wf) (src : SourcesOk I) (one : OneCall I)
    {comp : List Blk} (nr : NoReenter I comp) {base : HNode → HCtx} {st st' : HState}
    (h : SoundInv I comp base st) (hst : HeapSteps I comp st st') : SoundInv I comp base st' := by
  induction hst with
  | refl => exact h
  | step _ hs ih => exact ih.step wf src one nr hs

/-- The start of a component without the entry. -/
theorem SoundInv.start {I : HeapIn} (wf : I.Wf) (src : SourcesOk I) {comp : List Blk}
    {info : HNode → HCtx} (hi : InfoOk info) (hst : ∀ m, IsFresh info m ∨
      (effAt I m).act (info m).view = (info m).view) (hc : I.co.entry I.f ∉ comp)
    (hf : ∀ m, m.1 ∈ comp → info m = HCtx.init) :
    SoundInv I comp info (heapStart I comp info) := by
  obtain ⟨ext, he, hext⟩ : ∃ ext, heapStart I comp info = ⟨info, ext⟩ ∧
      ∀ p, p ∈ ext → ItemOk I comp p := by
    unfold heapStart
    cases comp with
    | nil => exact ⟨[], rfl, by simp⟩
    | cons b comp =>
      obtain ⟨ps, h1, h2⟩ := updateWork_item wf src (List.mem_cons_self (a := b) (l := comp))
        (fun e => hc (by rw [← e]; exact List.mem_cons_self)) ⟨info, []⟩
      refine ⟨_, h1, fun p hp => ?_⟩
      rcases List.mem_singleton.1 hp with rfl
      exact h2
  rw [he]
  exact ⟨hi, hst, fun _ _ => rfl, rfl, hext,
    fun n m _ hm => .inr (.inr (.inr (by unfold IsFresh; dsimp only; rw [hf m hm])))⟩

/-- The contexts of the processed blocks. -/
structure DoneInv (I : HeapIn) (done : List Blk) (info : HNode → HCtx) : Prop where
  ok : InfoOk info
  stable : ∀ m, IsFresh info m ∨ (effAt I m).act (info m).view = (info m).view
  rest : ∀ m, m.1 ∉ done → info m = HCtx.init
  entry : (info (entryNode I)).view =
    (effAt I (entryNode I)).act (setArgs HCtx.init).view
  edges : ∀ n m, HFlow I n m → m.1 ∈ done → EdgeOk I info n m ∨
    (n ≠ entryNode I ∧ IsFresh info n) ∨ IsFresh info m

/-- Predecessors of a component's blocks are in it or in components before; components are
disjoint. -/
inductive Ordered (I : HeapIn) : List Blk → List (List Blk) → Prop
  | nil {done} : Ordered I done []
  | cons {done comp comps} : (∀ b, b ∈ comp → b ∉ done) →
      (∀ n m, HFlow I n m → m.1 ∈ comp → n.1 ∈ comp ∨ n.1 ∈ done) →
      Ordered I (done ++ comp) comps → Ordered I done (comp :: comps)

theorem DoneInv.comp {I : HeapIn} (wf : I.Wf) (src : SourcesOk I) (one : OneCall I)
    {done comp : List Blk} {info info' : HNode → HCtx} (h : DoneInv I done info)
    (hd : I.co.entry I.f ∈ done) (hdis : ∀ b, b ∈ comp → b ∉ done)
    (hpred : ∀ n m, HFlow I n m → m.1 ∈ done → n.1 ∈ done)
    (ha : AnalysesBlocks I comp info info') : DoneInv I (done ++ comp) info' := by
  obtain ⟨st, h1, h2, rfl⟩ := ha
  have hne : I.co.entry I.f ∉ comp := fun e => hdis _ e hd
  have nr : NoReenter I comp := fun b e _ _ hc heq => hne (by rw [← heq]; exact hc)
  have inv := (SoundInv.start wf src h.ok h.stable hne
    (fun m hm => h.rest m (hdis _ hm))).steps wf src one nr h1
  have hwork : st.work = [] := by
    unfold heapStep at h2
    cases e : st.work with
    | nil => rfl
    | cons p l => rw [e] at h2; cases h2
  have hdone : ∀ m : HNode, m.1 ∈ done → st.info m = info m :=
    fun m hm => inv.out m fun hc => hdis _ hc hm
  refine ⟨inv.ok, inv.stable, fun m hm => ?_, by rw [inv.entry]; exact h.entry, fun n m hf hm => ?_⟩
  · rw [List.mem_append, not_or] at hm
    rw [inv.out m hm.2]; exact h.rest m hm.1
  · rcases List.mem_append.1 hm with hm | hm
    · have e1 := hdone n (hpred n m hf hm)
      have e2 := hdone m hm
      have := h.edges n m hf hm
      unfold EdgeOk IsFresh at this ⊢
      rw [e1, e2]
      exact this
    · rcases inv.edges n m hf hm with h1 | ⟨ps, hp⟩ | h1 | h1
      · exact .inl h1
      · rw [hwork] at hp; cases hp
      · exact .inr (.inl h1)
      · exact .inr (.inr h1)

theorem DoneInv.comps {I : HeapIn} (wf : I.Wf) (src : SourcesOk I) (one : OneCall I)
    {comps : List (List Blk)} {info info' : HNode → HCtx} (ha : Analyses I comps info info') :
    ∀ {done : List Blk}, DoneInv I done info → I.co.entry I.f ∈ done →
      (∀ n m, HFlow I n m → m.1 ∈ done → n.1 ∈ done) → Ordered I done comps →
      DoneInv I (done ++ comps.flatten) info' := by
  induction ha with
  | nil => intro done h _ _ _; simpa using h
  | cons hb _ ih =>
    intro done h hd hp ho
    cases ho with
    | cons h1 h2 h3 =>
      have := ih (h.comp wf src one hd h1 hp hb) (List.mem_append_left _ hd)
        (fun n m hf hm => by
          rcases List.mem_append.1 hm with hm | hm
          · exact List.mem_append_left _ (hp n m hf hm)
          · rcases h2 n m hf hm with h | h
            · exact List.mem_append_right _ h
            · exact List.mem_append_left _ h) h3
      simpa [List.append_assoc] using this

/-! ## The entry -/

theorem setArgs_view (c : HCtx) : (setArgs c).view =
    ⟨fun k => if k ∈ argRegs.map (fun r => some (HReg.gpr r)) then some .arg else c.view.r k,
      c.view.s⟩ := by
  have key : ∀ (l : List Reg) (c : HCtx),
      (l.foldl (fun c r => { c with
        regs := amSet c.regs (some (.gpr r)) ((c.reg (some (.gpr r))).setType .arg) }) c).view =
      ⟨fun k => if k ∈ l.map (fun r => some (HReg.gpr r)) then some .arg else c.view.r k,
        c.view.s⟩ := by
    intro l
    induction l with
    | nil => intro c; simp
    | cons r l ih =>
      intro c
      rw [List.foldl_cons, ih]
      congr 1
      funext k
      by_cases h1 : k ∈ l.map (fun r => some (HReg.gpr r))
      · rw [if_pos h1, if_pos (by rw [List.map_cons]; exact List.mem_cons_of_mem _ h1)]
      · rw [if_neg h1]
        simp only [HCtx.view, amGet_amSet]
        by_cases h2 : some (HReg.gpr r) = k
        · subst h2
          rw [if_pos rfl, if_pos (by simp)]
          cases c.reg (some (.gpr r)) <;> rfl
        · rw [if_neg h2, if_neg (by
            rw [List.map_cons, List.mem_cons]
            rintro (h | h)
            · exact h2 h.symm
            · exact h1 h)]
  exact key argRegs c

theorem start_has (I : HeapIn) : (setArgs HCtx.init).view.Has I PState.start := by
  rw [setArgs_view]
  refine ⟨fun r => ?_, fun h _ => ?_⟩
  · by_cases hr : r ∈ argRegs
    · have : PState.start.regs r = .arg := by unfold PState.start; exact if_pos hr
      rw [this]
      dsimp only
      rw [if_pos (List.mem_map.2 ⟨r, hr, rfl⟩)]
      exact .inr (.inr (.inr (.inl ⟨rfl, rfl⟩)))
    · have : PState.start.regs r = .entry r := by unfold PState.start; exact if_neg hr
      rw [this]
      exact .inl trivial
  · exact trivial

/-- At the entry the registers of arguments are arguments, and nothing is known about the others. -/
theorem start_exact (r : Reg) : (setArgs HCtx.init).view.r (some (.gpr r)) =
    if r ∈ sysvArgs then some .arg else some .bottom := by
  rw [setArgs_view]
  cases r <;> decide

/-- Writing the field `type` leaves the others: `/repo/src/heap.h:420`. -/
theorem setType_only (a : ALoc) (t : Loc) :
    (a.setType t).type = t ∧ (a.setType t).height = a.height ∧ (a.setType t).pointTo = a.pointTo ∧
    (a.setType t).pointToOk = a.pointToOk := by
  cases a <;> exact ⟨rfl, rfl, rfl, rfl⟩

/-- The entry block, a component of its own. -/
theorem entry_done {I : HeapIn} (wf : I.Wf) (src : SourcesOk I) (one : OneCall I)
    (once : EntryOnce I) (hb : I.co.entry I.f ∈ I.co.blocks I.f) {info : HNode → HCtx}
    (hnews : HCtx.same (setArgs HCtx.init) (transferAt I (entryNode I) (setArgs HCtx.init)) = false)
    (ha : AnalysesBlocks I [I.co.entry I.f] (fun _ => HCtx.init) info) :
    DoneInv I [I.co.entry I.f] info := by
  obtain ⟨st, h1, h2, rfl⟩ := ha
  have nr : NoReenter I [I.co.entry I.f] := by
    intro b e hbc he _ heq
    rw [List.mem_singleton.1 hbc] at he
    exact (once _ e hb he heq).1 rfl
  -- the first iteration
  have hs0 : heapStart I [I.co.entry I.f] (fun _ => HCtx.init) =
      ⟨fun m => if m = entryNode I then setArgs HCtx.init else HCtx.init, [(entryNode I, [])]⟩ := by
    unfold heapStart updateWork
    dsimp only
    rw [if_pos rfl]
    rfl
  have hok0 : (setArgs HCtx.init).Ok := setArgs_ok HCtx.init_ok
  generalize hc : transferAt I (entryNode I) (setArgs HCtx.init) = c at hnews
  have hcok : c.Ok := by
    rw [← hc]
    unfold transferAt
    split
    · exact (transfer_ok I _ _ hok0).1
    · exact hok0
  have hcv : c.view = (effAt I (entryNode I)).act (setArgs HCtx.init).view := by
    rw [← hc, transferAt_eff, view_run (effAt_ok I _) hok0]
  obtain ⟨ext, he, hext, hcov⟩ := pushNext_items wf src nr (n := entryNode I)
    (List.mem_singleton.2 rfl) ⟨fun m => if m = entryNode I then c else HCtx.init, []⟩
  have hfirst : heapStep I [I.co.entry I.f] (heapStart I [I.co.entry I.f] (fun _ => HCtx.init)) =
      some ⟨fun m => if m = entryNode I then c else HCtx.init, ext⟩ := by
    rw [hs0]
    have hnf : newFact I (fun m => if m = entryNode I then setArgs HCtx.init else HCtx.init)
        (entryNode I) [] = c := by
      unfold newFact meetPreds
      dsimp only
      rw [if_pos rfl, hc]
    have hnews' : ¬ HCtx.same ((fun m => if m = entryNode I then setArgs HCtx.init else HCtx.init)
        (entryNode I)) c = true := by
      dsimp only
      rw [if_pos rfl, hnews]; simp
    unfold heapStep
    dsimp only
    rw [hnf, if_neg hnews']
    have : (HState.setCtx ⟨fun m => if m = entryNode I then setArgs HCtx.init else HCtx.init,
        [(entryNode I, [])]⟩ (entryNode I) c).info =
        fun m => if m = entryNode I then c else HCtx.init := by
      funext m
      simp only [HState.setCtx]
      split <;> simp_all
    simp only [HState.setCtx] at this ⊢
    rw [this]
    simpa using he
  have hrest := heapSteps_uncons h1 hfirst
  have hrest : HeapSteps I [I.co.entry I.f]
      ⟨fun m => if m = entryNode I then c else HCtx.init, ext⟩ st := by
    rcases hrest with h | h
    · rw [← h, hfirst] at h2; cases h2
    · exact h
  have inv0 : SoundInv I [I.co.entry I.f] (fun m => if m = entryNode I then c else HCtx.init)
      ⟨fun m => if m = entryNode I then c else HCtx.init, ext⟩ := by
    refine ⟨fun m => ?_, fun m => ?_, fun _ _ => rfl, rfl, hext, fun n m hf hm => ?_⟩
    · dsimp only
      split
      · exact hcok
      · exact HCtx.init_ok
    · unfold IsFresh
      dsimp only
      by_cases e : m = entryNode I
      · subst e
        rw [if_pos rfl, hcv]
        exact .inr (act_idem _ _)
      · rw [if_neg e]; exact .inl rfl
    · by_cases e : n = entryNode I
      · subst e
        exact .inr (.inl (hcov m hf hm))
      · refine .inr (.inr (.inl ⟨e, ?_⟩))
        unfold IsFresh
        dsimp only
        rw [if_neg e]
  have inv := inv0.steps wf src one nr hrest
  have hwork : st.work = [] := by
    unfold heapStep at h2
    cases e : st.work with
    | nil => rfl
    | cons p l => rw [e] at h2; cases h2
  refine ⟨inv.ok, inv.stable, fun m hm => ?_, ?_, fun n m hf hm => ?_⟩
  · rw [inv.out m hm, if_neg]
    rintro rfl
    exact hm (List.mem_singleton.2 rfl)
  · rw [inv.entry, if_pos rfl, hcv]
  · rcases inv.edges n m hf hm with h1 | ⟨ps, hp⟩ | h1 | h1
    · exact .inl h1
    · rw [hwork] at hp; cases hp
    · exact .inr (.inl h1)
    · exact .inr (.inr h1)

/-! ## Runs -/

/-- The shape of the function; `comps` are the components besides that of the entry, `dead` are
blocks which control cannot reach, like landing pads for exceptions. -/
structure HeapShape (I : HeapIn) (dead : List Blk) (comps : List (List Blk)) : Prop where
  wf : I.Wf
  src : SourcesOk I
  one : OneCall I
  once : EntryOnce I
  entry : I.co.entry I.f ∈ I.co.blocks I.f
  alive : I.co.entry I.f ∉ dead
  closed : ∀ n m, HFlow I n m → m.1 ∈ dead → n.1 ∈ dead
  ordered : Ordered I (I.co.entry I.f :: dead) comps
  all : ∀ b, b ∈ I.co.blocks I.f → b = I.co.entry I.f ∨ b ∈ dead ∨ b ∈ comps.flatten

/-- Besides, every instruction has told the analysis something. -/
structure HeapSetting (I : HeapIn) (dead : List Blk) (comps : List (List Blk))
    (info : HNode → HCtx) : Prop extends HeapShape I dead comps where
  entryNews : HCtx.same (setArgs HCtx.init)
    (transferAt I (entryNode I) (setArgs HCtx.init)) = false
  news : ∀ b k, b ∈ I.co.blocks I.f → b ∉ dead → k < (I.insns b).length → (b, k) ≠ entryNode I →
    HCtx.same HCtx.init (info (b, k)) = false

theorem HeapSetting.done {I : HeapIn} {dead : List Blk} {comps : List (List Blk)}
    {info : HNode → HCtx}
    (h : HeapSetting I dead comps info)
    (ha : Analyses I ([I.co.entry I.f] :: comps) (fun _ => HCtx.init) info) :
    DoneInv I (I.co.entry I.f :: dead ++ comps.flatten) info := by
  cases ha with
  | @cons _ _ _ j _ h1 h2 =>
    have h0 := entry_done h.wf h.src h.one h.once h.entry h.entryNews h1
    have h0' : DoneInv I (I.co.entry I.f :: dead) j := by
      refine ⟨h0.ok, h0.stable, fun m hm => h0.rest m ?_, h0.entry, fun n m hf hm => ?_⟩
      · rw [List.mem_singleton]
        exact fun e => hm (by rw [e]; exact List.mem_cons_self)
      · rcases List.mem_cons.1 hm with e | e
        · exact h0.edges n m hf (List.mem_singleton.2 e)
        · refine .inr (.inr ?_)
          unfold IsFresh
          rw [h0.rest m (by
            rw [List.mem_singleton]
            exact fun e' => h.alive (by rw [← e']; exact e))]
    refine h0'.comps h.wf h.src h.one h2 List.mem_cons_self (fun n m hf hm => ?_) h.ordered
    rcases List.mem_cons.1 hm with hm | hm
    · cases hf with
      | next _ _ => exact List.mem_cons.2 (.inl hm)
      | edge k1 k2 k3 k4 k5 =>
        exfalso
        exact flow_ne_entry h.once (.edge k1 k2 k3 k4 k5) (Prod.ext hm rfl)
    · exact List.mem_cons_of_mem _ (h.closed n m hf hm)

theorem HeapSetting.fresh {I : HeapIn} {dead : List Blk} {comps : List (List Blk)}
    {info : HNode → HCtx}
    (h : HeapSetting I dead comps info) (hi : InfoOk info) {n : HNode} (hb : n.1 ∈ I.co.blocks I.f)
    (hd : n.1 ∉ dead) (hk : n.2 < (I.insns n.1).length) (hn : n ≠ entryNode I) : ¬ IsFresh info n := by
  intro hf
  have := h.news n.1 n.2 hb hd hk hn
  rw [show ((n.1, n.2) : HNode) = n from rfl, (same_iff HCtx.init_ok (hi n)).2 hf.symm] at this
  cases this

theorem flow_real {I : HeapIn} (wf : I.Wf) {n m : HNode} (h : HFlow I n m) :
    (n.1 ∈ I.co.blocks I.f ∧ n.2 < (I.insns n.1).length) ∧
    (m.1 ∈ I.co.blocks I.f ∧ m.2 < (I.insns m.1).length) := by
  cases h with
  | next h1 h2 => exact ⟨⟨h1, Nat.lt_of_succ_lt h2⟩, h1, h2⟩
  | edge h1 _ _ _ h5 =>
    have p1 := List.length_pos_iff.2 (wf.1 _ h1)
    have p2 := List.length_pos_iff.2 (wf.1 _ h5)
    exact ⟨⟨h1, by dsimp only; omega⟩, h5, p2⟩

theorem HeapSetting.edge {I : HeapIn} {dead : List Blk} {comps : List (List Blk)}
    {info : HNode → HCtx}
    (h : HeapSetting I dead comps info)
    (ha : Analyses I ([I.co.entry I.f] :: comps) (fun _ => HCtx.init) info) {n m : HNode}
    (hl : n.1 ∉ dead) (hf : HFlow I n m) : EdgeOk I info n m := by
  have hd := h.done ha
  have hr := flow_real h.wf hf
  have hl' : m.1 ∉ dead := fun e => hl (h.closed n m hf e)
  have hm : m.1 ∈ I.co.entry I.f :: dead ++ comps.flatten := by
    rcases h.all m.1 hr.2.1 with e | e | e
    · rw [e]; exact List.mem_append_left _ List.mem_cons_self
    · exact absurd e hl'
    · exact List.mem_append_right _ e
  rcases hd.edges n m hf hm with h1 | h1 | h1
  · exact h1
  · exact absurd h1.2 (h.fresh hd.ok hr.1.1 hl hr.1.2 h1.1)
  · exact absurd h1 (h.fresh hd.ok hr.2.1 hl' hr.2.2 (flow_ne_entry h.once hf))

theorem HeapSetting.live {I : HeapIn} {dead : List Blk} {comps : List (List Blk)}
    {info : HNode → HCtx} (h : HeapSetting I dead comps info) {n : HNode} {s : PState}
    (hr : ORun I true n s) : n.1 ∉ dead := by
  induction hr with
  | start _ => exact h.alive
  | step _ hf _ ih => exact fun e => ih (h.closed _ _ hf e)

theorem HeapSetting.run {I : HeapIn} {dead : List Blk} {comps : List (List Blk)}
    {info : HNode → HCtx}
    (h : HeapSetting I dead comps info)
    (ha : Analyses I ([I.co.entry I.f] :: comps) (fun _ => HCtx.init) info) {n : HNode} {s : PState}
    (hr : ORun I true n s) : (info n).view.Has I s := by
  induction hr with
  | start hs =>
    have := (h.done ha).entry
    unfold entryNode at this
    rw [this]
    exact step_has h.one h.entry hs (start_has I)
  | step hr hf hs ih => exact h.edge ha (h.live hr) hf _ _ ih hs

theorem HeapSetting.before {I : HeapIn} {dead : List Blk} {comps : List (List Blk)}
    {info : HNode → HCtx}
    (h : HeapSetting I dead comps info)
    (ha : Analyses I ([I.co.entry I.f] :: comps) (fun _ => HCtx.init) info) {m : HNode}
    {s s' : PState} (hb : OBefore I true m s) (hs : OStepAt I true m s s') :
    (info m).view.Has I s' ∧ (effAt I m).act (info m).view = (info m).view := by
  have hd := h.done ha
  rcases hb with ⟨rfl, rfl⟩ | ⟨n, hr, hf⟩
  · refine ⟨h.run ha (.start hs), ?_⟩
    have := hd.entry
    unfold entryNode at this
    rw [this, act_idem]
  · refine ⟨h.run ha (.step hr hf hs), ?_⟩
    have hreal := flow_real h.wf hf
    rcases hd.stable m with h1 | h1
    · exact absurd h1 (h.fresh hd.ok hreal.2.1
        (fun e => h.live hr (h.closed _ _ hf e)) hreal.2.2 (flow_ne_entry h.once hf))
    · exact h1

end Verif
