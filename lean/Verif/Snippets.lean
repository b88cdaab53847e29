import Verif.JitLemmas
import Verif.SnippetSpec

/-! Execution of whole snippets, for every shape the emitter produces. -/

namespace Verif

/-- The result of `saveTemps` or `useSpecified`: code, registers and offset agree. -/
structure Shape (c1 : Code) (t : Temps) (off0 : Int) (t1 t2 : Reg) (b1 b2 : Bool) : Prop where
  code : c1 = saveCode t1 t2 b1 b2
  tmp1 : t.tmp1 = some t1
  tmp2 : t.tmp2 = some t2
  saved1 : t.saved1 = b1
  saved2 : t.saved2 = b2
  off : t.spOffset = off0 + nsave b1 b2
  ne : t1 ≠ t2
  rsp1 : t1 ≠ .rsp
  rsp2 : t2 ≠ .rsp

theorem Shape.restore {c1 : Code} {t : Temps} {off0 : Int} {t1 t2 : Reg} {b1 b2 : Bool}
    (h : Shape c1 t off0 t1 t2 b1 b2) : restoreTemps t = some (restoreCode t1 t2 b1 b2) := by
  cases b1 <;> cases b2 <;>
    simp [restoreTemps, h.tmp1, h.tmp2, h.saved1, h.saved2, restoreCode]

/-- Registers which a snippet of this shape may leave changed. -/
def freeOf (t1 t2 : Reg) (b1 b2 : Bool) (r : Reg) : Prop :=
  (r = t1 ∧ b1 = false) ∨ (r = t2 ∧ b2 = false)

theorem ret_addr (rsp : W) (off0 : Int) (n : Nat) :
    rsp - BitVec.ofNat 64 n + BitVec.ofInt 64 (off0 + n) = rsp + BitVec.ofInt 64 off0 := by
  rw [BitVec.ofInt_add, BitVec.ofInt_natCast, BitVec.add_comm (BitVec.ofInt 64 off0),
    ← BitVec.add_assoc, BitVec.sub_add_cancel]

theorem nsave_le (b1 b2 : Bool) : nsave b1 b2 ≤ 16 := by cases b1 <;> cases b2 <;> decide

theorem slot1_sub (rsp : W) (b2 : Bool) :
    ((rsp - 8) - (rsp - BitVec.ofNat 64 (nsave true b2))).toNat + 8 ≤ nsave true b2 := by
  cases b2
  · have : (rsp - 8) - (rsp - BitVec.ofNat 64 (nsave true false)) = 0#64 := by
      simp only [nsave]; bv_omega
    rw [this]; decide
  · have : (rsp - 8) - (rsp - BitVec.ofNat 64 (nsave true true)) = 8#64 := by
      simp only [nsave]; bv_omega
    rw [this]; decide

theorem slot2_sub (rsp : W) (b1 : Bool) :
    ((rsp - BitVec.ofNat 64 (nsave b1 true)) -
      (rsp - BitVec.ofNat 64 (nsave b1 true))).toNat + 8 ≤ nsave b1 true := by
  rw [BitVec.sub_self]; cases b1 <;> decide

/-- Saving, a core which keeps the save area, rsp and other registers, and restoring. -/
theorem ends_frame {t1 t2 : Reg} {b1 b2 : Bool} {s s1 s2 s3 : State} {areas : List (W × Nat)}
    (hs : AfterSave t1 t2 b1 b2 s s1)
    (hr : AfterRestore t1 t2 b1 b2 s2 s3) (ht1 : t1 ≠ .rsp) (ht2 : t2 ≠ .rsp)
    (hregs : ∀ r, r ≠ t1 → r ≠ t2 → s2.regs r = s1.regs r)
    (hgs : s2.gs = s1.gs)
    (hmem : ∀ x, (∀ p, p ∈ areas → ¬ InRange x p.1 p.2) → s2.mem x = s1.mem x)
    (hsep : ∀ p, p ∈ areas →
      Sep (s.regs .rsp - BitVec.ofNat 64 (nsave b1 b2)) (nsave b1 b2) p.1 p.2) :
    SameExcept (freeOf t1 t2 b1 b2)
      (areas ++ [(s.regs .rsp - BitVec.ofNat 64 (nsave b1 b2), nsave b1 b2)]) s s3 := by
  have hrsp2 : s2.regs .rsp = s.regs .rsp - BitVec.ofNat 64 (nsave b1 b2) := by
    rw [hregs _ ht1.symm ht2.symm, hs.rsp]
  have hkeep : ∀ x, InRange x (s.regs .rsp - BitVec.ofNat 64 (nsave b1 b2)) (nsave b1 b2) →
      s2.mem x = s1.mem x := by
    intro x hx
    exact hmem x fun p hp => sep_not_inRange (hsep p hp) hx
  have hrsp3 : s3.regs .rsp = s.regs .rsp := by
    rw [hr.rsp, hrsp2, BitVec.sub_add_cancel]
  refine ⟨hrsp3, ?_, ?_, ?_⟩
  · intro r hr'
    by_cases e0 : r = .rsp
    · subst e0; exact hrsp3
    by_cases e1 : r = t1
    · subst e1
      cases b1 with
      | false => exact absurd (Or.inl ⟨rfl, rfl⟩) hr'
      | true =>
        rw [hr.tmp1, if_pos rfl, hrsp2, BitVec.sub_add_cancel]
        rw [read64_eq _ _ _ (fun x hx => hkeep x (inRange_sub hx (slot1_sub _ _))), hs.slot1 rfl]
    by_cases e2 : r = t2
    · subst e2
      cases b2 with
      | false => exact absurd (Or.inr ⟨rfl, rfl⟩) hr'
      | true =>
        rw [hr.tmp2, if_pos rfl, hrsp2]
        rw [read64_eq _ _ _ (fun x hx => hkeep x (inRange_sub hx (slot2_sub _ _))), hs.slot2 rfl]
    rw [hr.regs r e0 e1 e2, hregs r e1 e2, hs.regs r e0]
  · rw [hr.gs, hgs, hs.gs]
  · intro x hx
    rw [hr.mem, hmem x fun p hp => hx p (List.mem_append_left _ hp)]
    exact hs.mem x (hx _ (List.mem_append_right _ (List.mem_singleton.2 rfl)))

/-- A snippet which records the return address. -/
theorem exits_push {c1 : Code} {t : Temps} {off0 : Int} {t1 t2 : Reg} {b1 b2 : Bool}
    (h : Shape c1 t off0 t1 t2 b1 b2) (s : State)
    (hsep : PushSep (s.regs .rsp + BitVec.ofInt 64 off0) (nsave b1 b2) s) :
    ∃ s', Exits (c1 ++ saveRa t1 t2 t ++ restoreCode t1 t2 b1 b2) s s' ∧
      Pushed (freeOf t1 t2 b1 b2) (s.regs .rsp + BitVec.ofInt 64 off0) (nsave b1 b2) s s' := by
  generalize hw : c1 ++ saveRa t1 t2 t ++ restoreCode t1 t2 b1 b2 = w
  obtain ⟨s1, hs, e1⟩ := ends_save w (saveRa t1 t2 t ++ (restoreCode t1 t2 b1 b2 ++ []))
    t1 t2 b1 b2 s h.rsp2
  obtain ⟨s2, hregs, hfl, hgs, hmem, e2⟩ := ends_saveRa w (restoreCode t1 t2 b1 b2 ++ []) t1 t2 t s1
    h.ne
  obtain ⟨s3, hr, e3⟩ := ends_restore w [] t1 t2 b1 b2 s2 h.rsp1 h.rsp2 h.ne
  have hsh : s1.mem.read64 s1.gs = s.shadow := by
    rw [hs.gs]; exact read64_of_sep hs.mem hsep.gs_save
  have hret : s1.mem.read64 (s1.regs .rsp + BitVec.ofInt 64 t.spOffset) =
      s.mem.read64 (s.regs .rsp + BitVec.ofInt 64 off0) := by
    rw [hs.rsp, h.off, ret_addr]
    exact read64_of_sep hs.mem hsep.ret_save
  rw [hsh, hret, hs.gs] at hmem
  refine ⟨s3, ?_, ?_, ?_, ?_, ?_⟩
  · rw [exits_iff, ← hw, h.code]
    have := e1 _ (e2 _ (e3 _ (ends_nil w s3)))
    rw [List.append_nil] at this
    rw [← hw, h.code] at this
    simpa [List.append_assoc] using this
  · rw [hr.mem, hmem, read64_write64_sep _ _ _ _ hsep.slot_gs, read64_write64]
  · rw [State.shadow, hr.mem, hr.gs, hgs, hs.gs, hmem, read64_write64]
  · have := ends_frame (areas := [(s.shadow, 8), (s.gs, 8)]) hs hr h.rsp1 h.rsp2 hregs hgs ?_ ?_
    · exact this
    · intro x hx
      have hx1 := hx _ (List.mem_cons_self ..)
      have hx2 := hx _ (List.mem_cons_of_mem _ (List.mem_cons_self ..))
      rw [hmem, write64_outRange _ _ _ _ hx2, write64_outRange _ _ _ _ hx1]
    · intro p hp
      rcases List.mem_cons.1 hp with rfl | hp
      · exact hsep.slot_save.symm
      · rw [List.mem_singleton] at hp
        subst hp; exact hsep.gs_save.symm
  · rw [hr.flags, hfl, hs.flags]

/-! ## Checks -/

theorem target_append {l : Label} {pre k : Code} (h : ∀ i, i ∈ pre → i.binds l = false) :
    target l (pre ++ k) = target l k := by
  induction pre with
  | nil => rfl
  | cons i pre ih =>
    rw [List.cons_append, target, h i (List.mem_cons_self ..)]
    exact ih fun j hj => h j (List.mem_cons_of_mem _ hj)

theorem saveCode_binds (t1 t2 : Reg) (b1 b2 : Bool) (l : Label) :
    ∀ i, i ∈ saveCode t1 t2 b1 b2 → i.binds l = false := by
  intro i hi
  cases b1 <;> cases b2 <;> simp [saveCode] at hi <;> (try rcases hi with rfl | rfl) <;>
    (try subst hi) <;> rfl

theorem hasLoop {pre post : Code} {sp ra : Reg} {t : Temps}
    (h : ∀ l i, i ∈ pre → i.binds l = false) :
    HasLoop (pre ++ (validateRa sp ra t ++ post)) sp ra t.spOffset post where
  loop := by rw [target_append (h _)]; rfl
  done := by rw [target_append (h _)]; rfl
  error := by rw [target_append (h _)]; rfl

/-- The check proper: load the pointer, then loop. -/
theorem ends_validate_accept {w post : Code} {t1 t2 : Reg} {t : Temps} {s : State} {n : Nat}
    {R : W} (hw : HasLoop w t1 t2 t.spOffset post) (h12 : t1 ≠ t2) (h1 : t1 ≠ .rsp)
    (h2 : t2 ≠ .rsp) (hR : s.regs .rsp + BitVec.ofInt 64 t.spOffset = R)
    (hsepR : Sep R 8 s.gs 8)
    (hsepE : ∀ i, i ≤ n → Sep (s.shadow - BitVec.ofNat 64 (8 * (i + 1))) 8 s.gs 8)
    (hlt : ∀ i, i < n → s.entry i ≠ s.mem.read64 R ∧ ¬ GuardLike (s.entry i))
    (hn : s.entry n = s.mem.read64 R) :
    ∃ s', LoopPost t1 t2 s s' ∧ s'.shadow = s.shadow - BitVec.ofNat 64 (8 * (n + 1)) ∧
      ∀ o, Ends w post s' o → Ends w (validateRa t1 t2 t ++ post) s o := by
  have hyp : LoopHyp t1 t2 t.spOffset s.gs R (s.mem.read64 R) s.shadow s.entry n
      (s.set t1 s.shadow) :=
    { gs := rfl
      sp := by simp [State.set]
      slot := by simpa [State.set, h1.symm] using hR
      ret := rfl
      ent := fun _ _ => rfl
      sepR := hsepR
      sepE := hsepE }
  obtain ⟨s', hp, hg, hs⟩ := ends_loop_accept hw h12 h1 h2 n _ _ _ hyp hlt hn
  refine ⟨s', ?_, ?_, fun o ho => ?_⟩
  · refine ⟨fun r hr1 hr2 => ?_, hp.gs, hp.mem⟩
    rw [hp.regs r hr1 hr2]; simp [State.set, hr1]
  · rw [State.shadow, hp.gs]; exact hg
  · refine ends_next (s' := s.set t1 s.shadow) ?_ (ends_next rfl (hs o ho))
    simp [exec, State.gsa, State.shadow]

theorem ends_validate_reject {w post : Code} {t1 t2 : Reg} {t : Temps} {s : State} {n : Nat}
    {R : W} (hw : HasLoop w t1 t2 t.spOffset post) (h12 : t1 ≠ t2) (h1 : t1 ≠ .rsp)
    (h2 : t2 ≠ .rsp) (hR : s.regs .rsp + BitVec.ofInt 64 t.spOffset = R)
    (hsepR : Sep R 8 s.gs 8)
    (hsepE : ∀ i, i ≤ n → Sep (s.shadow - BitVec.ofNat 64 (8 * (i + 1))) 8 s.gs 8)
    (hlt : ∀ i, i < n → s.entry i ≠ s.mem.read64 R ∧ ¬ GuardLike (s.entry i))
    (hn : s.entry n ≠ s.mem.read64 R) (hg : GuardLike (s.entry n)) :
    ∃ s', Ends w (validateRa t1 t2 t ++ post) s (.trap s') := by
  have hyp : LoopHyp t1 t2 t.spOffset s.gs R (s.mem.read64 R) s.shadow s.entry n
      (s.set t1 s.shadow) :=
    { gs := rfl
      sp := by simp [State.set]
      slot := by simpa [State.set, h1.symm] using hR
      ret := rfl
      ent := fun _ _ => rfl
      sepR := hsepR
      sepE := hsepE }
  obtain ⟨s', hs⟩ := ends_loop_reject hw h12 h1 h2 n _ _ _ hyp hlt hn hg
  refine ⟨s', ends_next (s' := s.set t1 s.shadow) ?_ (ends_next rfl hs)⟩
  simp [exec, State.gsa, State.shadow]

/-- Saving scratch registers changes neither the shadow stack nor the return address. -/
theorem AfterSave.view {t1 t2 : Reg} {b1 b2 : Bool} {s s1 : State} {R : W} {d : Nat}
    (hs : AfterSave t1 t2 b1 b2 s s1) (hsep : CheckSep R (nsave b1 b2) d s) :
    s1.shadow = s.shadow ∧ s1.mem.read64 R = s.mem.read64 R ∧
      ∀ i, i < d → s1.entry i = s.entry i := by
  have h1 : s1.shadow = s.shadow := by
    rw [State.shadow, hs.gs]; exact read64_of_sep hs.mem hsep.gs_save
  refine ⟨h1, read64_of_sep hs.mem hsep.ret_save, fun i hi => ?_⟩
  rw [State.entry, h1]
  exact read64_of_sep hs.mem (hsep.ent_save i hi)

theorem exits_check {pre c1 post : Code} {t : Temps} {off0 : Int} {t1 t2 : Reg} {b1 b2 : Bool}
    (hpre : ∀ l i, i ∈ pre → i.binds l = false)
    (h : Shape c1 t off0 t1 t2 b1 b2) (s : State) (n : Nat)
    (hsep : CheckSep (s.regs .rsp + BitVec.ofInt 64 off0) (nsave b1 b2) (n + 1) s)
    (hlt : ∀ i, i < n → s.entry i ≠ s.mem.read64 (s.regs .rsp + BitVec.ofInt 64 off0) ∧
      ¬ GuardLike (s.entry i))
    (hn : s.entry n = s.mem.read64 (s.regs .rsp + BitVec.ofInt 64 off0)) :
    ∃ s', Checked (freeOf t1 t2 b1 b2) (nsave b1 b2) n s s' ∧ ∀ o,
      Ends (pre ++ c1 ++ validateRa t1 t2 t ++ restoreCode t1 t2 b1 b2 ++ post) post s' o →
      Ends (pre ++ c1 ++ validateRa t1 t2 t ++ restoreCode t1 t2 b1 b2 ++ post)
        (c1 ++ validateRa t1 t2 t ++ restoreCode t1 t2 b1 b2 ++ post) s o := by
  generalize hw : pre ++ c1 ++ validateRa t1 t2 t ++ restoreCode t1 t2 b1 b2 ++ post = w
  have hloop : HasLoop w t1 t2 t.spOffset (restoreCode t1 t2 b1 b2 ++ post) := by
    have := hasLoop (pre := pre ++ c1) (post := restoreCode t1 t2 b1 b2 ++ post) (sp := t1)
      (ra := t2) (t := t) (by
        intro l i hi
        rcases List.mem_append.1 hi with hi | hi
        · exact hpre l i hi
        · rw [h.code] at hi; exact saveCode_binds _ _ _ _ l i hi)
    rw [← hw]; simpa [List.append_assoc] using this
  obtain ⟨s1, hs, e1⟩ := ends_save w (validateRa t1 t2 t ++ (restoreCode t1 t2 b1 b2 ++ post))
    t1 t2 b1 b2 s h.rsp2
  obtain ⟨v1, v2, v3⟩ := hs.view hsep
  obtain ⟨s2, hp, hg, e2⟩ := ends_validate_accept (s := s1) (n := n) hloop h.ne h.rsp1 h.rsp2
    (by rw [hs.rsp, h.off, ret_addr]) (by rw [hs.gs]; exact hsep.ret_gs)
    (by intro i hi; rw [v1, hs.gs]; exact hsep.ent_gs i (by omega))
    (by intro i hi; rw [v2, v3 i (by omega)]; exact hlt i hi)
    (by rw [v2, v3 n (by omega)]; exact hn)
  obtain ⟨s3, hr, e3⟩ := ends_restore w post t1 t2 b1 b2 s2 h.rsp1 h.rsp2 h.ne
  refine ⟨s3, ⟨?_, ?_⟩, fun o ho => ?_⟩
  · rw [State.shadow, hr.mem, hr.gs]
    exact hg.trans (by rw [v1])
  · have := ends_frame (areas := [(s.gs, 8)]) hs hr h.rsp1 h.rsp2 hp.regs hp.gs ?_ ?_
    · exact this
    · intro x hx
      exact hp.mem x (by rw [hs.gs]; exact hx _ (List.mem_cons_self ..))
    · intro p hp
      rw [List.mem_singleton] at hp
      subst hp; exact hsep.gs_save.symm
  · have := e1 _ (e2 _ (e3 _ ho))
    rw [h.code]
    simpa [List.append_assoc] using this

theorem traps_check {pre c1 post : Code} {t : Temps} {off0 : Int} {t1 t2 : Reg} {b1 b2 : Bool}
    (hpre : ∀ l i, i ∈ pre → i.binds l = false)
    (h : Shape c1 t off0 t1 t2 b1 b2) (s : State) (n : Nat)
    (hsep : CheckSep (s.regs .rsp + BitVec.ofInt 64 off0) (nsave b1 b2) (n + 1) s)
    (hlt : ∀ i, i < n → s.entry i ≠ s.mem.read64 (s.regs .rsp + BitVec.ofInt 64 off0) ∧
      ¬ GuardLike (s.entry i))
    (hn : s.entry n ≠ s.mem.read64 (s.regs .rsp + BitVec.ofInt 64 off0))
    (hg : GuardLike (s.entry n)) :
    ∃ s', Ends (pre ++ c1 ++ validateRa t1 t2 t ++ restoreCode t1 t2 b1 b2 ++ post)
        (c1 ++ validateRa t1 t2 t ++ restoreCode t1 t2 b1 b2 ++ post) s (.trap s') := by
  generalize hw : pre ++ c1 ++ validateRa t1 t2 t ++ restoreCode t1 t2 b1 b2 ++ post = w
  have hloop : HasLoop w t1 t2 t.spOffset (restoreCode t1 t2 b1 b2 ++ post) := by
    have := hasLoop (pre := pre ++ c1) (post := restoreCode t1 t2 b1 b2 ++ post) (sp := t1)
      (ra := t2) (t := t) (by
        intro l i hi
        rcases List.mem_append.1 hi with hi | hi
        · exact hpre l i hi
        · rw [h.code] at hi; exact saveCode_binds _ _ _ _ l i hi)
    rw [← hw]; simpa [List.append_assoc] using this
  obtain ⟨s1, hs, e1⟩ := ends_save w (validateRa t1 t2 t ++ (restoreCode t1 t2 b1 b2 ++ post))
    t1 t2 b1 b2 s h.rsp2
  obtain ⟨v1, v2, v3⟩ := hs.view hsep
  obtain ⟨s2, e2⟩ := ends_validate_reject (s := s1) (n := n) hloop h.ne h.rsp1 h.rsp2
    (by rw [hs.rsp, h.off, ret_addr]) (by rw [hs.gs]; exact hsep.ret_gs)
    (by intro i hi; rw [v1, hs.gs]; exact hsep.ent_gs i (by omega))
    (by intro i hi; rw [v2, v3 i (by omega)]; exact hlt i hi)
    (by rw [v2, v3 n (by omega)]; exact hn)
    (by rw [v3 n (by omega)]; exact hg)
  refine ⟨s2, ?_⟩
  have := e1 _ e2
  rw [h.code]
  simpa [List.append_assoc] using this

/-! ## Shapes produced by the emitter -/

theorem mem_of_lookup {l : List (String × Reg)} {n : String} {r : Reg}
    (h : l.lookup n = some r) : (n, r) ∈ l := by
  induction l with
  | nil => simp at h
  | cons p l ih =>
    rw [List.lookup] at h
    split at h
    · next e =>
      simp at e h
      subst e; subst h; exact List.mem_cons_self ..
    · exact List.mem_cons_of_mem _ (ih h)

theorem regMap_name : ∀ p, p ∈ regMap → p.2 ≠ .rsp ∧ p.2.name = p.1 := by decide

/-- The register table maps exactly the names of the registers other than rsp. -/
theorem regOf_iff {n : String} {r : Reg} : regOf n = some r ↔ r ≠ .rsp ∧ r.name = n := by
  constructor
  · intro h; exact regMap_name _ (mem_of_lookup h)
  · rintro ⟨h, rfl⟩
    cases r <;> first | (exact absurd rfl h) | decide

theorem regOf_known {n : String} (h : KnownName n) : ∃ r, regOf n = some r := by
  obtain ⟨r, h⟩ := h
  exact ⟨r, regOf_iff.2 h⟩

theorem regOf_ne {n m : String} {r r' : Reg} (h : regOf n = some r) (h' : regOf m = some r')
    (hne : n ≠ m) : r ≠ r' := by
  rintro rfl
  exact hne ((regOf_iff.1 h).2.symm.trans (regOf_iff.1 h').2)

/-- Moved snippets with two free registers. -/
theorem useSpecified_two {mid : MoveInst} {r1 r2 : Reg} (height : Int) (h : mid.saveCount = 2)
    (h1 : regOf mid.reg1 = some r1) (h2 : regOf mid.reg2 = some r2) (hne : r1 ≠ r2) :
    ∃ c1 t, useSpecified mid height = some (c1, t) ∧
      Shape c1 t (mid.raOffset + height) r1 r2 false false := by
  refine ⟨[], Temps.ofMove mid height, by simp [useSpecified, Temps.ofMove, h], ?_⟩
  refine ⟨by simp [saveCode], by simp [Temps.ofMove, h1],
    by simp [Temps.ofMove, h, h2], by simp [Temps.ofMove], by simp [Temps.ofMove, h],
    by simp [Temps.ofMove, nsave], hne, (regOf_iff.1 h1).1, (regOf_iff.1 h2).1⟩

/-- Moved snippets with one free register. -/
theorem useSpecified_one {mid : MoveInst} {r1 : Reg} (height : Int) (h : mid.saveCount ≠ 2)
    (h1 : regOf mid.reg1 = some r1) :
    ∃ c1 t r2, useSpecified mid height = some (c1, t) ∧
      Shape c1 t (mid.raOffset + height) r1 r2 false true := by
  by_cases hr : "x86_64::r10" = mid.reg1
  · have hr1 : r1 = .r10 := by
      have : regOf mid.reg1 = some .r10 := by rw [← hr]; decide
      rw [h1] at this; exact Option.some.inj this
    refine ⟨[.push .r11], { Temps.ofMove mid height with spOffset := mid.raOffset + height + 8 },
      .r11, ?_, ?_⟩
    · simp [useSpecified, Temps.ofMove, h, ← hr, save, regMap]
    · refine ⟨rfl, by simp [Temps.ofMove, h1], by simp [Temps.ofMove, h, ← hr, regMap],
        by simp [Temps.ofMove], by simp [Temps.ofMove, h], rfl, by simp [hr1],
        (regOf_iff.1 h1).1, by simp⟩
  · have hr1 : r1 ≠ .r10 := by
      rintro rfl
      exact hr (regOf_iff.1 h1).2
    refine ⟨[.push .r10], { Temps.ofMove mid height with spOffset := mid.raOffset + height + 8 },
      .r10, ?_, ?_⟩
    · simp [useSpecified, Temps.ofMove, h, hr, save, regMap, h1]
    · refine ⟨rfl, by simp [Temps.ofMove, h1], by simp [Temps.ofMove, h, hr, regMap],
        by simp [Temps.ofMove], by simp [Temps.ofMove, h], rfl, hr1,
        (regOf_iff.1 h1).1, by simp⟩

/-! The default choice: the first two registers of the table that are not excluded. -/

theorem pickTemps_one (ex : List String) (l : List (String × Reg)) (t : Temps) :
    pickTemps ex l 1 t =
      match l.filter (fun p => !ex.contains p.1) with
      | [] => t
      | b :: _ => { t with tmp2 := some b.2 } := by
  induction l with
  | nil => rfl
  | cons p l ih =>
    by_cases h : ex.contains p.1
    · simp only [pickTemps, h, if_true, List.filter_cons, Bool.not_true]
      simpa using ih
    · simp only [pickTemps, h, List.filter_cons, Bool.not_false, if_true]
      simp

theorem pickTemps_zero (ex : List String) (l : List (String × Reg)) (t : Temps) :
    pickTemps ex l 0 t =
      match l.filter (fun p => !ex.contains p.1) with
      | [] => t
      | [a] => { t with tmp1 := some a.2 }
      | a :: b :: _ => { t with tmp1 := some a.2, tmp2 := some b.2 } := by
  induction l with
  | nil => rfl
  | cons p l ih =>
    by_cases h : ex.contains p.1
    · simp only [pickTemps, h, if_true, List.filter_cons, Bool.not_true]
      simpa using ih
    · simp only [pickTemps, h, List.filter_cons, Bool.not_false, if_true]
      simp only [Bool.false_eq_true, if_false, Nat.zero_add]
      rw [if_neg (by decide), pickTemps_one]
      cases l.filter (fun p => !ex.contains p.1) <;> rfl

theorem regMap_nodup : (regMap.map Prod.snd).Nodup := by decide

/-- If two registers are left, the default choice takes two distinct ones. -/
theorem ofExclude_two {ex : List String} {n m : String} (hn : KnownName n) (hm : KnownName m)
    (hne : n ≠ m) (hen : n ∉ ex) (hem : m ∉ ex) (height : Int) :
    ∃ r1 r2, Temps.ofExclude ex height =
        { tmp1 := some r1, tmp2 := some r2, tmp3 := none, saved1 := true, saved2 := true,
          saved3 := true, spOffset := height } ∧
      r1 ≠ r2 ∧ r1 ≠ .rsp ∧ r2 ≠ .rsp ∧ r1.name ∉ ex ∧ r2.name ∉ ex := by
  obtain ⟨rn, hrn⟩ := regOf_known hn
  obtain ⟨rm, hrm⟩ := regOf_known hm
  have an : (n, rn) ∈ regMap.filter (fun p => !ex.contains p.1) :=
    List.mem_filter.2 ⟨mem_of_lookup hrn, by simpa using hen⟩
  have am : (m, rm) ∈ regMap.filter (fun p => !ex.contains p.1) :=
    List.mem_filter.2 ⟨mem_of_lookup hrm, by simpa using hem⟩
  have hnd : ((regMap.filter (fun p => !ex.contains p.1)).map Prod.snd).Nodup :=
    List.Sublist.nodup (List.Sublist.map _ List.filter_sublist) regMap_nodup
  have hmem : ∀ p, p ∈ regMap.filter (fun p => !ex.contains p.1) →
      p.2 ≠ .rsp ∧ p.2.name ∉ ex := by
    intro p hp
    obtain ⟨h1, h2⟩ := List.mem_filter.1 hp
    obtain ⟨h3, h4⟩ := regMap_name p h1
    exact ⟨h3, by rw [h4]; simpa using h2⟩
  unfold Temps.ofExclude
  rw [pickTemps_zero]
  revert an am hnd hmem
  cases regMap.filter (fun p => !ex.contains p.1) with
  | nil => intro an; simp at an
  | cons a l =>
    cases l with
    | nil =>
      intro an am
      rw [List.mem_singleton] at an am
      rw [← an] at am
      exact absurd (congrArg Prod.fst am) hne.symm
    | cons b l =>
      intro _ _ hnd hmem
      refine ⟨a.2, b.2, rfl, ?_, (hmem a (by simp)).1, (hmem b (by simp)).1,
        (hmem a (by simp)).2, (hmem b (by simp)).2⟩
      simp at hnd
      intro e; exact hnd.1.1 e

/-- Without free registers, both scratch registers are saved. -/
theorem saveTemps_default {fl : JitFlags} {dead ex : List String}
    (h : fl.optimizeRegs = false ∨ dead = []) {n m : String} (hn : KnownName n)
    (hm : KnownName m) (hne : n ≠ m) (hen : n ∉ ex) (hem : m ∉ ex) (height : Int) :
    ∃ c1 t r1 r2, saveTemps fl dead ex height = some (c1, t) ∧
      Shape c1 t height r1 r2 true true ∧ r1.name ∉ ex ∧ r2.name ∉ ex := by
  obtain ⟨r1, r2, ht, hr, h1, h2, e1, e2⟩ := ofExclude_two hn hm hne hen hem height
  refine ⟨[.push r1, .push r2],
    { tmp1 := some r1, tmp2 := some r2, tmp3 := none, saved1 := true, saved2 := true,
      saved3 := true, spOffset := height + 8 + 8 }, r1, r2, ?_, ⟨rfl, ?_, ?_, ?_, ?_, ?_, hr, h1, h2⟩, e1, e2⟩
  · rw [saveTemps]
    rw [if_pos (by rcases h with h | h <;> simp [h])]
    simp only [save, ht, Option.map_some]
    rfl
  all_goals simp [nsave, Int.add_assoc]

/-- With at least four dead registers, numbers 1 and 2 are used without saving. -/
theorem saveTemps_dead {fl : JitFlags} {dead ex : List String} (h : fl.optimizeRegs = true)
    (hlen : 4 ≤ dead.length) (hnd : dead.Nodup) (hk : ∀ n, n ∈ dead → KnownName n)
    (height : Int) :
    ∃ c1 t r1 r2, saveTemps fl dead ex height = some (c1, t) ∧
      Shape c1 t height r1 r2 false false ∧ r1.name ∈ dead ∧ r2.name ∈ dead := by
  match dead, hlen with
  | d0 :: d1 :: d2 :: d3 :: l, _ =>
    obtain ⟨r1, h1⟩ := regOf_known (hk d1 (by simp))
    obtain ⟨r2, h2⟩ := regOf_known (hk d2 (by simp))
    obtain ⟨r3, h3⟩ := regOf_known (hk d3 (by simp))
    refine ⟨[], { Temps.ofExclude ex height with
      tmp1 := some r1, tmp2 := some r2, tmp3 := some r3,
      saved1 := false, saved2 := false, saved3 := false }, r1, r2, ?_,
      ⟨rfl, rfl, rfl, rfl, rfl, ?_, ?_, (regOf_iff.1 h1).1, (regOf_iff.1 h2).1⟩, ?_, ?_⟩
    · rw [saveTemps]
      rw [if_neg (by simp [h])]
      simp [derefNext, saveOrSkip1, saveOrSkip2, saveOrSkip3, h1, h2, h3]
    · have : ∀ (l : List (String × Reg)) (c : Nat) (t : Temps),
          (pickTemps ex l c t).spOffset = t.spOffset := by
        intro l
        induction l with
        | nil => intros; rfl
        | cons p l ih =>
          intro c t
          simp only [pickTemps]
          have : ∀ t', t'.spOffset = t.spOffset → ∀ (b : Prop) [Decidable b] c',
              (if b then t' else pickTemps ex l c' t').spOffset = t.spOffset := by
            intro t' e b _ c'
            by_cases hb : b
            · simpa [hb] using e
            · simpa [e, hb] using ih c' t'
          refine this _ ?_ _ _
          split
          · rfl
          · split <;> rfl
      simp [Temps.ofExclude, this, nsave]
    · refine regOf_ne h1 h2 ?_
      rintro rfl
      simp at hnd
    · rw [(regOf_iff.1 h1).2]; simp
    · rw [(regOf_iff.1 h2).2]; simp

end Verif
