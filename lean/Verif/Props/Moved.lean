import Verif.Props.BlockLive

/-!
# C28 and C53: moved snippets do not change what the program computes
-/

namespace Verif

/-- The emitter accepts what the scans produce. -/
theorem scratchOk_of_scan {fl : JitFlags} {names : List String} {l : List BInsn} {mid : MoveInst}
    (h : Scratch2 (deadRegs l) mid) : ScratchOk fl names (some mid) where
  move m hm := by
    cases hm
    have hk : ∀ r ∈ deadRegs l, KnownName r.name := by
      intro r hr
      cases l with
      | nil => simp [deadRegs] at hr
      | cons i rest => exact ⟨r, ((mem_deadRegs i rest r).mp hr).1, rfl⟩
    obtain ⟨r, hr, e⟩ := h.reg1
    refine ⟨e ▸ hk r hr, fun h2 => ?_⟩
    obtain ⟨r', hr', e', hne⟩ := h.reg2 h2
    exact ⟨e' ▸ hk r' hr', hne⟩
  dead hm := by cases hm

/-- The registers which a moved snippet clobbers are dead. -/
theorem scratchFree_dead {fl : JitFlags} {names : List String} {l : List BInsn} {mid : MoveInst}
    (h : Scratch2 (deadRegs l) mid) (r : Reg) (hr : ScratchFree fl names (some mid) r) :
    r ∈ deadRegs l := by
  rcases hr with e | ⟨h2, e⟩
  · obtain ⟨x, hx, ex⟩ := h.reg1
    have : r = x := name_inj _ _ (by rw [e, ex])
    rw [this]; exact hx
  · obtain ⟨x, hx, ex, _⟩ := h.reg2 h2
    have : r = x := name_inj _ _ (by rw [e, ex])
    rw [this]; exact hx

/-- The bytes below `rsp` in which a moved snippet saves its second register: none if two
registers are dead. -/
def SaveArea (mid : MoveInst) (s : State) (a : W) : Prop :=
  mid.saveCount ≠ 2 ∧ InRange a (s.regs .rsp - 8) 8

theorem not_saveArea {fl : JitFlags} {names : List String} {mid : MoveInst} {s : State} {a : W}
    (h : ¬ SaveArea mid s a) :
    ¬ InRange a (s.regs .rsp - BitVec.ofNat 64 (belowSp fl names (some mid)))
      (belowSp fl names (some mid)) := by
  unfold SaveArea at h
  simp only [belowSp]
  split
  · simp [InRange]
  · rename_i hc
    exact fun hi => h ⟨hc, hi⟩

/-- Instructions after a moved check do not read flags. -/
theorem quietAfter_flags (p : BInsn × Sem) (hp : PlainAfter p) (hq : QuietAfter p.1) :
    RegRef.flag ∉ p.1.reads := by
  rcases hq with h | ⟨_, h | ⟨_, h⟩⟩
  · exact hp.2.2.1 h
  · exact (hp.2.1 h).2
  · intro hm
    have : p.1.readsFlags = true := by
      simp [BInsn.readsFlags, hm]
    rw [h] at this
    cases this

/-- **C28, what holds.** Insert the check at the place chosen by the scan.  If it falls
through, and the rest of the block uses neither the shadow pointer word nor the save area,
then the block ends with the same registers, the same gs base and, outside the shadow pointer
word and the save area, the same memory as without the check.  Missing: blocks that use the
save area, for which it is false. -/
theorem C28_moved_check_partial (insns : List (BInsn × Sem)) (mid : MoveInst)
    (h : exitData (insns.map Prod.fst) = some mid) (hp : ∀ p ∈ insns, PlainAfter p) :
    ∃ pre p rest, insns = pre ++ p :: rest ∧ p.1.addr = mid.newAddr ∧
      ∀ (fl : JitFlags) (sm : JitSummary) (blockStart addr : Nat), Normal fl →
        sm.exitData blockStart = some mid →
        ∃ code, jitStackPop fl (some sm) true blockStart addr = some code ∧
          ∀ (s s' : State) (l : List W), s.Holds l → CheckReady fl (some sm) (some mid) addr l s →
            Exits code s s' →
            NoTouch (fun a => InRange a s.gs 8 ∨ SaveArea mid s a) (p :: rest) s →
            let t := runSem (p :: rest) s
            let t' := runSem (p :: rest) s'
            (∀ r, t'.regs r = t.regs r) ∧ t'.gs = t.gs ∧
              ∀ a, ¬ InRange a s.gs 8 → ¬ SaveArea mid s a → t'.mem a = t.mem a := by
  obtain ⟨pre, i, rest, h1, h2, h3, h4, h5, h6⟩ := C27_exit_position _ _ h
  obtain ⟨pre', tail, e1, e2, e3⟩ := List.map_eq_append_iff.mp h1
  obtain ⟨p, rest', e4, e5, e6⟩ := List.map_eq_cons_iff.mp e3
  refine ⟨pre', p, rest', by rw [e1, e4], by rw [e5]; exact h2, ?_⟩
  intro fl sm blockStart addr hf hsm
  have hm : popMove (some sm) true blockStart = some (some mid) := by simp [popMove, hsm]
  have hok : ScratchOk fl (deadExit (some sm) addr) (some mid) := scratchOk_of_scan h6
  obtain ⟨code, hc⟩ := check_emitted (addr := addr) hf hm hok
  refine ⟨code, hc, fun s s' l hl hr hx hn => ?_⟩
  obtain ⟨c1, c2, c3, c4⟩ := C05_check_transparent hf hm hok hc hl hr hx
  have hmap : (p :: rest').map Prod.fst = i :: rest := by rw [List.map_cons, e5, e6]
  have hsub : ∀ q ∈ p :: rest', q ∈ insns := fun q hq => by
    rw [e1, e4]; exact List.mem_append_right _ hq
  have hnear := near_run (p :: rest') (fun q hq => (hp q (hsub q hq)).1) True
    (fun a => InRange a s.gs 8 ∨ SaveArea mid s a)
    (fun _ q hq => quietAfter_flags q (hp q (hsub q hq))
      (h4 q.1 (by rw [← hmap]; exact List.mem_map_of_mem hq)))
    (ScratchFree fl (deadExit (some sm) addr) (some mid)) s s'
    (fun r hr => by rw [hmap]; exact scratchFree_dead h6 r hr)
    ⟨c3, fun h => absurd trivial h, c2, fun a ha => c4 a (fun h => ha (.inl h))
      (not_saveArea fun h => ha (.inr h))⟩ hn
  exact ⟨fun r => hnear.regs r id, hnear.gs, fun a ha1 ha2 => hnear.mem a fun h => h.elim ha1 ha2⟩

/-- With two dead registers there is no save area. -/
theorem C28_two_dead (mid : MoveInst) (h : mid.saveCount = 2) (s : State) (a : W) :
    ¬ SaveArea mid s a := fun hs => hs.1 h

/-- **C53.** Insert the push at the place chosen by the scan.  It falls through, and if the
rest of the block uses neither the shadow slot, nor the shadow pointer word, nor the save
area, then the block ends with the same registers, flags, gs base and, outside these areas,
the same memory as without the push. -/
theorem C53_moved_push (insns : List (BInsn × Sem)) (mid : MoveInst)
    (h : entryData (insns.map Prod.fst) = some mid) (hp : ∀ p ∈ insns, Lawful p.1 p.2) :
    ∃ pre p rest, insns = pre ++ p :: rest ∧ p.1.addr = mid.newAddr ∧
      ∀ (fl : JitFlags) (sm : JitSummary) (blockStart : Nat), Normal fl →
        sm.entryData blockStart = some mid →
        ∃ code, jitStackPush fl (some sm) true 0 false blockStart 0 = some code ∧
          ∀ s : State, PushSep (s.regs .rsp + BitVec.ofInt 64 mid.raOffset)
              (belowSp fl (deadEntry (some sm)) (some mid)) s →
            NoTouch (fun a => InRange a s.shadow 8 ∨ InRange a s.gs 8 ∨ SaveArea mid s a)
              (p :: rest) s →
            ∃ s', Exits code s s' ∧
              s'.mem.read64 s.shadow = s.mem.read64 (s.regs .rsp + BitVec.ofInt 64 mid.raOffset) ∧
              let t := runSem (p :: rest) s
              let t' := runSem (p :: rest) s'
              (∀ r, t'.regs r = t.regs r) ∧ t'.flags = t.flags ∧ t'.gs = t.gs ∧
                ∀ a, ¬ InRange a s.shadow 8 → ¬ InRange a s.gs 8 → ¬ SaveArea mid s a →
                  t'.mem a = t.mem a := by
  obtain ⟨pre, i, rest, h1, h2, h3, h4, h6⟩ := C26_entry_position _ _ h
  obtain ⟨pre', tail, e1, e2, e3⟩ := List.map_eq_append_iff.mp h1
  obtain ⟨p, rest', e4, e5, e6⟩ := List.map_eq_cons_iff.mp e3
  refine ⟨pre', p, rest', by rw [e1, e4], by rw [e5]; exact h2, ?_⟩
  intro fl sm blockStart hf hsm
  have hm : pushMove (some sm) true false blockStart 0 = some (some mid) := by
    simp [pushMove, hsm]
  have hok : ScratchOk fl (deadEntry (some sm)) (some mid) := scratchOk_of_scan h6
  have hd : pushDisp (some sm) (some mid) 0 = mid.raOffset := by simp [pushDisp]
  obtain ⟨code, hc, hx⟩ := C01_push_records hf (some sm) true false 0 blockStart 0 (some mid) hm hok
  rw [hd] at hx
  refine ⟨code, hc, fun s hsep hn => ?_⟩
  obtain ⟨s', hs', hrec, _⟩ := hx s hsep
  obtain ⟨_, htr⟩ := C02_push_transparent hf (some sm) true false 0 blockStart 0 (some mid) hm hok code
    hc s (by rw [hd]; exact hsep)
  obtain ⟨c1, c2, c3, c4, c5⟩ := htr s' hs'
  have hmap : (p :: rest').map Prod.fst = i :: rest := by rw [List.map_cons, e5, e6]
  have hsub : ∀ q ∈ p :: rest', q ∈ insns := fun q hq => by
    rw [e1, e4]; exact List.mem_append_right _ hq
  have hnear := near_run (p :: rest') (fun q hq => hp q (hsub q hq)) False
    (fun a => InRange a s.shadow 8 ∨ InRange a s.gs 8 ∨ SaveArea mid s a) (fun h => h.elim)
    (ScratchFree fl (deadEntry (some sm)) (some mid)) s s'
    (fun r hr => by rw [hmap]; exact scratchFree_dead h6 r hr)
    ⟨c4, fun _ => c2, c3, fun a ha => c5 a (fun h => ha (.inl h)) (fun h => ha (.inr (.inl h)))
      (not_saveArea fun h => ha (.inr (.inr h)))⟩ hn
  exact ⟨s', hs', hrec, fun r => hnear.regs r id, hnear.flags id, hnear.gs,
    fun a a1 a2 a3 => hnear.mem a fun h => h.elim a1 fun h => h.elim a2 a3⟩

/-! ## C28 is false with one dead register -/

/-- `mov rax, [rsp - 8]; ret`: returns a value kept in the red zone. -/
def redBlock : List (BInsn × Sem) :=
  [(loadInsn 16 .rax .rsp, loadSem .rax .rsp (-8)), (retInsn 20, retSem)]

/-- What the scan chooses for it. -/
def redMid : MoveInst :=
  { newAddr := 16, raOffset := 0, saveCount := 1, reg1 := "x86_64::rax", reg2 := "" }

theorem redMid_chosen : exitData (redBlock.map Prod.fst) = some redMid := by decide

theorem redBlock_plain : ∀ p ∈ redBlock, PlainAfter p := by
  intro p hp
  simp only [redBlock, List.mem_cons, List.not_mem_nil, or_false] at hp
  rcases hp with rfl | rfl
  · exact ⟨load_lawful _ _ _ _, fun h => (by cases h), fun h => (by cases h), fun _ _ n => by
      simp [loadInsn]⟩
  · exact ⟨ret_lawful _, fun h => (by cases h), fun _ => by simp [retInsn], fun _ h => by
      exact absurd h (by decide)⟩

def redSummary : JitSummary := { exitData := fun _ => some redMid }

def redState : State := sampleState 0x401000 [0x401000]

theorem redState_holds : redState.Holds [0x401000] where
  entries := by decide
  guard := by decide

theorem redState_ready : CheckReady {} (some redSummary) (some redMid) 20 [0x401000] redState where
  ret_gs := sep_of_le (by decide) (by decide) (by decide)
  ret_save := sep_of_le (by decide) (by decide) (by decide)
  gs_save := sep_of_le (by decide) (by decide) (by decide)
  ent_gs := fun i hi => sep_of_le (by decide) (by decide) (by revert i; decide)
  ent_save := fun i hi => sep_of_le (by decide) (by decide) (by revert i; decide)

/-- The check emitted there. -/
def redCode : Code := ((jitStackPop {} (some redSummary) true 16 20).getD [])

/-- Its result, by execution. -/
def redAfter : Option State :=
  match run redCode 40 redCode redState with
  | some (.exit s) => some s
  | _ => none

/-- **C28 is false.** The function returns another value when its check is moved: the value
read from the red zone is the register saved by the check. -/
theorem C28_refuted : ∃ (s' : State), jitStackPop {} (some redSummary) true 16 20 = some redCode ∧
    Exits redCode redState s' ∧ (runSem redBlock redState).regs .rax = 0 ∧
    (runSem redBlock s').regs .rax = 7 := by
  have h1 : (redAfter.map fun s => (runSem redBlock s).regs .rax) = some 7 := by decide
  have h2 : jitStackPop {} (some redSummary) true 16 20 = some redCode := by decide
  unfold redAfter at h1
  split at h1
  · rename_i s hs
    exact ⟨s, h2, ⟨40, hs⟩, by decide, by simpa using h1⟩
  · cases h1

/-- C28 on a block with two dead registers: `lea rax, [rbx]; lea rcx, [rbx]; ret`. -/
example : exitData ([(leaInsn 16 .rax .rbx, leaSem .rax .rbx 0), (leaInsn 20 .rcx .rbx, leaSem .rcx .rbx 0),
      (retInsn 24, retSem)].map Prod.fst) =
    some { newAddr := 16, raOffset := 0, saveCount := 2, reg1 := "x86_64::rax", reg2 := "x86_64::rcx" } := by
  decide

/-- The hypothesis on the save area is needed and can be met: a block that reads above
`rsp` only. -/
example (s : State) (h : s.gs = 0x100000 ∧ s.regs .rsp = 0x7000) :
    NoTouch (fun a => InRange a s.gs 8 ∨ SaveArea redMid s a)
      [(popInsn 16 .rax, popSem .rax), (retInsn 17, retSem)] s := by
  refine ⟨fun a ha hn => ?_, fun a ha => ha.elim, trivial⟩
  simp only [popSem, InRange, SaveArea, h.1, h.2] at ha hn
  rcases hn with hn | ⟨_, hn⟩ <;> bv_omega

end Verif
