import Verif.Props.WeakMemoryExamples

/-! # C121: threads which write to their own areas and to what nobody relies on -/

namespace Verif

section
variable {m : ProgSem} {frame : Func → Reg} {snip : Func → Ev → Code → State → W → Prop} {avx : Bool}
  {text : W → Byte} {own : W → Prop} {depth : Nat} {A : Nat → W → Prop} {g : Nat → W}

theorem Buffered.Adds.writes {i : Nat} {a b : Buffered} (h : a.Adds A i b) : Caches.x86.writes i a b := by
  obtain ⟨h1, h2, ws, h3, _⟩ := h
  exact ⟨h1, h2, ws, h3⟩

theorem Tidy.adds {T : Nat → Option Gang} {i : Nat} {a b : Buffered} {c : Gang} (ht : Tidy g A a T) (h : a.Adds A i b)
    (hc : c.Stays A g i) : Tidy g A b (setAt T i (some c)) := by
  obtain ⟨_, h2, ws, h3, h4⟩ := h
  constructor
  · intro j d hj
    by_cases e : j = i
    · subst e
      rw [setAt_same] at hj
      cases hj
      exact hc
    · rw [setAt, if_neg e] at hj
      exact ht.relies j d hj
  · intro k j hk w hw
    by_cases e : k = i
    · subst e
      rw [h3, List.mem_append] at hw
      rcases hw with hw | hw
      · exact ht.waiting k j hk w hw
      · exact h4 w hw j fun e => hk e.symm
    · rw [h2 k e] at hw
      exact ht.waiting k j hk w hw

/-- What holds of processes with areas. -/
def TidyProc (g : Nat → W) (A : Nat → W → Prop) : WeakProc .x86 → Prop
  | .run a T => Tidy g A a T
  | _ => True

theorem AreaStep.weak {p q : WeakProc .x86} (h : AreaStep m frame snip avx text own depth A g p q)
    (ht : TidyProc g A p) : WeakStep m frame snip avx text .x86 own depth g p q ∧ TidyProc g A q := by
  cases h with
  | step h1 h2 h3 h4 => exact ⟨.step h1 h2 h3.writes (C121_x86_writes h3.writes), Tidy.adds ht h3 h4⟩
  | pass h1 => exact ⟨.pass h1 (C121_x86_passes ht h1), Tidy.passes ht h1⟩
  | stop h1 h2 => exact ⟨.stop h1 h2, trivial⟩
  | stray h1 h2 => exact ⟨.stray h1 h2, trivial⟩
  | spawn f p h1 h2 h3 h4 h5 =>
    exact ⟨.spawn f p h1 h2 h3 h4.writes (C121_x86_writes h4.writes), Tidy.adds ht h4 h5⟩
  | exit h1 =>
    refine ⟨.exit h1, ⟨fun j d hj => ?_, ht.waiting⟩⟩
    rename_i i _
    by_cases e : j = i
    · subst e
      rw [setAt_same] at hj
      cases hj
    · rw [setAt, if_neg e] at hj
      exact ht.relies j d hj

/-- **C121, areas.** Every execution on x86 in which threads do not write to each other's areas is one of those of which C121
speaks.  So nothing is asked of the moments at which writes get to memory. -/
theorem C121_areas {a0 : Buffered} (h0 : ∀ i j, i ≠ j → ∀ w ∈ a0.waiting i, ¬ A j w.1) {ps : List (WeakProc .x86)}
    (h : Trail (AreaStep m frame snip avx text own depth A g) (.run a0 fun _ => none) ps) :
    Trail (WeakStep m frame snip avx text .x86 own depth g) (.run a0 fun _ => none) ps := by
  have : Trail (WeakStep m frame snip avx text .x86 own depth g) (.run a0 fun _ => none) ps ∧
      ∀ p, ps.head? = some p → TidyProc g A p := by
    induction h with
    | start =>
      refine ⟨.start, fun p hp => ?_⟩
      cases hp
      exact ⟨nofun, h0⟩
    | step _ hs ih =>
      obtain ⟨k1, k2⟩ := hs.weak (ih.2 _ rfl)
      refine ⟨ih.1.step k1, fun p hp => ?_⟩
      cases hp
      exact k2
  exact this.1

/-- So no thread jumps to where an attacker wants, and none leaves the bytes of snippets. -/
theorem C121_areas_safe (h : WeakProtected m frame snip avx text .x86 own depth g) {a0 : Buffered}
    (h0 : ∀ i, a0.waiting i = []) {ps : List (WeakProc .x86)} {p : WeakProc .x86}
    (ht : Trail (AreaStep m frame snip avx text own depth A g) (.run a0 fun _ => none) (p :: ps)) :
    (∀ i, p ≠ .strayed i) ∧ ∀ i v, p ≠ .stopped i (.hijacked v) := by
  have := C121_areas (fun i j _ w hw => by rw [h0 i] at hw; cases hw) ht
  constructor
  · rintro i rfl
    exact h.within _ _ _ this
  · rintro i v rfl
    exact h.unchecked _ _ _ _ this

end

/-! ## An execution -/

/-- The regions of two threads and parts of their stacks. -/
def twoAreas (i : Nat) (x : W) : Prop :=
  i = 0 ∧ (InRange x 0x100000 regionSize ∨ InRange x 0x6ff0 24) ∨
  i = 1 ∧ (InRange x 0x2000000 regionSize ∨ InRange x 0x8ff0 24)

/-- Steps of a process of the program with exceptions on x86 with areas. -/
abbrev tryAreas (frame : Func → Reg) (avx : Bool) : WeakProc .x86 → WeakProc .x86 → Prop :=
  AreaStep (tryProg.excSem.handling noHandler) frame tryProg.snip avx tryText (· = 0x403000) 2 twoAreas twoRegions

theorem in_part {x p q : W} {n k d : Nat} (h : InRange x p n) (e : p = q + BitVec.ofNat 64 d) (hn : d + n ≤ k)
    (hk : k < 2 ^ 64) : InRange x q k := by
  unfold InRange at *
  subst e
  bv_omega

theorem stays_own {i : Nat} {s : State} {a : XAct} (hi : i = 0 ∧ a.at_ = 0x7000 ∨ i = 1 ∧ a.at_ = 0x9000) :
    Gang.Stays twoAreas twoRegions i ⟨.own s [a], []⟩ := by
  intro x hx
  have key : InRange x (twoRegions i) regionSize ∨ InRange x a.at_ 8 := by
    rcases hx with hx | ⟨b, hb, h⟩ | ⟨_, hb, _⟩
    · exact .inl hx
    · rw [List.mem_singleton.mp hb] at h; exact .inr h
    · cases hb
  rcases hi with ⟨rfl, e⟩ | ⟨rfl, e⟩ <;> rw [e] at key
  · exact .inl ⟨rfl, key.imp id fun h => in_part (d := 16) h rfl (by decide) (by decide)⟩
  · exact .inr ⟨rfl, key.imp id fun h => in_part (d := 16) h rfl (by decide) (by decide)⟩

theorem stays_busy {i n : Nat} {b y : W} {ev : Ev} {s0 s : State} {a : XAct}
    (hi : i = 0 ∧ a.at_ = 0x7000 ∧ s0.regs .rsp - BitVec.ofNat 64 16 = 0x6ff0 ∨
      i = 1 ∧ a.at_ = 0x9000 ∧ s0.regs .rsp - BitVec.ofNat 64 16 = 0x8ff0) :
    Gang.Stays twoAreas twoRegions i ⟨.busy b n y ev s0 s a [], []⟩ := by
  intro x hx
  rcases hi with ⟨rfl, e, e'⟩ | ⟨rfl, e, e'⟩
  · refine .inl ⟨rfl, hx.imp id fun h => ?_⟩
    rcases task_keeps e e' h with h | h
    · exact in_part (d := 16) h rfl (by decide) (by decide)
    · exact in_part (d := 0) h rfl (by decide) (by decide)
  · refine .inr ⟨rfl, hx.imp id fun h => ?_⟩
    rcases task_keeps e e' h with h | h
    · exact in_part (d := 16) h rfl (by decide) (by decide)
    · exact in_part (d := 0) h rfl (by decide) (by decide)

theorem adds_add {a : Buffered} {i : Nat} {ws : List (W × Byte)} (hw : ∀ w ∈ ws, ∀ j, j ≠ i → ¬ twoAreas j w.1) :
    a.Adds twoAreas i (a.add i ws) := ⟨rfl, fun _ hj => if_neg hj, ws, if_pos rfl, hw⟩

theorem area_step {m : ProgSem} {frame : Func → Reg} {snip : Func → Ev → Code → State → W → Prop} {avx : Bool}
    {text : W → Byte} {own : W → Prop} {depth : Nat} {g : Nat → W} {a : Buffered} {T : Nat → Option Gang} {i : Nat}
    {c c' : Gang} {mem' : Mem} (hi : T i = some c)
    (h : GangStep m frame snip avx text own depth (g i) (Caches.x86.sees a i) c mem' c') {ws : List (W × Byte)}
    (hw : afterWrites (Caches.x86.sees a i) ws = mem') (hs : c'.Stays twoAreas g i)
    (hA : ∀ w ∈ ws, ∀ j, j ≠ i → ¬ twoAreas j w.1) :
    AreaStep m frame snip avx text own depth twoAreas g (.run a T) (.run (a.add i ws) (setAt T i (some c'))) := by
  refine .step hi ?_ (adds_add hA) hs
  rw [Buffered.add_sees, hw]
  exact h

/-- Example for `C121_areas` and `C121_areas_safe`: both threads have executed one instruction of their pushes, and then one byte
of what each of them has written gets to memory, that of the second thread first. -/
theorem C121_areas_example (frame : Func → Reg) (avx : Bool) :
    ∃ a s s' s0 s0' ps, (a.waiting 0).length = 7 ∧ (a.waiting 1).length = 7 ∧
      Trail (tryAreas frame avx) (.run ⟨twoMem, fun _ => []⟩ fun _ => none)
      (.run a (gangPair ⟨.busy 0x500000 38 0x500002 .push s0 s ⟨2, [], 0x401000, 0x7000⟩ [], []⟩
        ⟨.busy 0x500000 38 0x500002 .push s0' s' ⟨2, [], 0x402000, 0x9000⟩ [], []⟩) :: ps) := by
  have e1 : oneState.mem.read64 0x7000 = 0x401000 := by decide
  have e2 : otherState.mem.read64 0x9000 = 0x402000 := by decide
  have i1 : Inside 0x500000 38 0x500000 := ⟨0, by decide, rfl⟩
  have i2 : Inside 0x500000 38 0x500002 := ⟨2, by decide, rfl⟩
  have nl : ¬ LoadsPointer tryText 0x500000 := by
    rintro ⟨r, n, h⟩
    rw [try_decode] at h
    cases h
  have none_ : ∀ i, Buffered.Adds twoAreas i ⟨twoMem, fun _ => []⟩ ⟨twoMem, fun _ => []⟩ :=
    fun i => ⟨rfl, fun _ _ => rfl, [], rfl, nofun⟩
  have r1 := Trail.step (step := tryAreas frame avx) (.start (p := .run ⟨twoMem, fun _ => []⟩ fun _ => none))
    (.spawn (i := 0) (s := oneState) 2 0x7000 rfl rfl one_recorded (none_ 0) (stays_own (.inl ⟨rfl, rfl⟩)))
  have r2 := r1.step (.spawn (i := 1) (s := otherState) 2 0x9000 (by simp [setAt]) rfl other_recorded (none_ 1)
    (stays_own (.inr ⟨rfl, rfl⟩)))
  rw [e1, e2] at r2
  change Trail _ _ (WeakProc.run _ (gangPair ⟨.own oneState _, []⟩ ⟨.own otherState _, []⟩) :: _) at r2
  have b0 : oneState.regs .rsp - BitVec.ofNat 64 16 = 0x6ff0 := by decide
  have b1 : otherState.regs .rsp - BitVec.ofNat 64 16 = 0x8ff0 := by decide
  have r3 := r2.step (area_step (i := 0) (ws := []) (gangPair_one _ _) (.begin tryProg_pushes (tryPush_snip (by decide))
    try_inserted (one_clear (by decide))) rfl (stays_busy (.inl ⟨rfl, rfl, b0⟩)) nofun)
  rw [gangPair_set_one] at r3
  have r4 := r3.step (area_step (i := 1) (ws := []) (gangPair_two _ _) (.begin tryProg_pushes (tryPush_snip (by decide))
    try_inserted (other_clear (by decide))) rfl (stays_busy (.inr ⟨rfl, rfl, b1⟩)) nofun)
  rw [gangPair_set_two] at r4
  have w0 : ∀ w ∈ eightWrites 0x6ff8 5 8, ¬ (InRange w.1 0x2000000 regionSize ∨ InRange w.1 0x8ff0 24) := by
    simp only [InRange]; decide +kernel
  have w1 : ∀ w ∈ eightWrites 0x8ff8 7 8, ¬ (InRange w.1 0x100000 regionSize ∨ InRange w.1 0x6ff0 24) := by
    simp only [InRange]; decide +kernel
  have r5 := r4.step (area_step (i := 0) (ws := eightWrites 0x6ff8 5 8) (gangPair_one _ _)
    (.instr (fun _ h => absurd h nl) i1 (try_execute avx _) (.inl i2)) (eightWrites_write _ _ _)
    (stays_busy (.inl ⟨rfl, rfl, b0⟩)) (fun w hw j hj h => h.elim (fun h => hj h.1) fun h => w0 w hw h.2))
  rw [gangPair_set_one] at r5
  have r6 := r5.step (area_step (i := 1) (ws := eightWrites 0x8ff8 7 8) (gangPair_two _ _)
    (.instr (fun _ h => absurd h nl) i1 (try_execute avx _) (.inl i2)) (eightWrites_write _ _ _)
    (stays_busy (.inr ⟨rfl, rfl, b1⟩)) (fun w hw j hj h => h.elim (fun h => w1 w hw h.2) fun h => hj h.1))
  rw [gangPair_set_two] at r6
  have r7 := r6.step (.pass (i := 1) (b := Buffered.mk (fun y => if y = 0x8ff8 then 7 else twoMem y)
      (fun j => if j = 1 then (eightWrites 0x8ff8 7 8).tail else if j = 0 then eightWrites 0x6ff8 5 8 else []))
    (show Caches.x86.passes 1 _ _ from ⟨0x8ff8, 7, rfl, fun j hj => ?_, rfl⟩))
  · have r8 := r7.step (.pass (i := 0) (b := Buffered.mk (fun y => if y = 0x6ff8 then 5 else if y = 0x8ff8 then 7 else twoMem y)
        (fun j => if j = 1 then (eightWrites 0x8ff8 7 8).tail else if j = 0 then (eightWrites 0x6ff8 5 8).tail else []))
      (show Caches.x86.passes 0 _ _ from ⟨0x6ff8, 5, rfl, fun j hj => ?_, rfl⟩))
    · exact ⟨_, _, _, _, _, _, rfl, rfl, r8⟩
    · by_cases h1 : j = 1 <;> simp [hj, h1]
  · by_cases h1 : j = 0 <;> simp [Buffered.add, hj, h1]

end Verif
