import Verif.Props.Region
import Verif.Props.RegNames
import Verif.Props.Local
import Verif.Props.BlockLive
import Verif.Props.Tools
import Verif.Props.Honest

/-!
Exact results of some of the passes: what they find, not only that what they find is right.
-/

namespace Verif

/-! ## The generated initialiser (C14, C16) -/

/-- C14, for the generated initialiser: it sets up an empty stack with its guard words, or stops
if `arch_prctl` fails. -/
theorem C14_generated (frame : Bool) (addr : W) (s : State) :
    initGenerated frame false addr s = none ∧
    ∃ s', initGenerated frame true addr s = some s' ∧ s'.gs = addr ∧ s'.regs = s.regs ∧
      s'.shadow = addr + (if frame then 24 else 16) ∧ s'.Holds [] ∧
      (frame = true → s'.entry 1 = 0) ∧
      ∀ x, ¬ InRange x addr (if frame then 24 else 16) → s'.mem x = s.mem x := by
  refine ⟨rfl, ?_⟩
  have sep : ∀ a b : Nat, a + 8 ≤ 64 → b + 8 ≤ 64 → a + 8 ≤ b ∨ b + 8 ≤ a →
      Sep (addr + BitVec.ofNat 64 a) 8 (addr + BitVec.ofNat 64 b) 8 := by
    intro a b ha hb hab
    have hr : regionSize = 8388608 := rfl
    exact sep_offsets addr (by omega) (by omega) hab (by decide) (by decide)
  have e0 : addr + BitVec.ofNat 64 0 = addr := by simp
  have e16 : addr + 8 + 8 = addr + 16 := by bv_omega
  have e24 : addr + 16 + 8 = addr + 24 := by bv_omega
  have s8 : Sep (addr + 8) 8 addr 8 := by
    have := sep 8 0 (by omega) (by omega) (.inr (by omega)); rw [e0] at this; exact this
  have s16 : Sep (addr + 16) 8 addr 8 := by
    have := sep 16 0 (by omega) (by omega) (.inr (by omega)); rw [e0] at this; exact this
  have s816 : Sep (addr + 8) 8 (addr + 16) 8 := sep 8 16 (by omega) (by omega) (.inl (by omega))
  have out : ∀ {x : W} {k n : Nat}, k + 8 ≤ n → n ≤ 64 → ¬ InRange x addr n →
      ¬ InRange x (addr + BitVec.ofNat 64 k) 8 := by
    intro x k n hk hn hx hc
    refine hx (inRange_sub hc ?_)
    rw [off_toNat (by omega)]; exact hk
  have o0 : ∀ {x : W} {n : Nat}, 8 ≤ n → n ≤ 64 → ¬ InRange x addr n → ¬ InRange x addr 8 := by
    intro x n h1 h2 h
    have := out (x := x) (k := 0) (n := n) (by omega) h2 h
    rw [e0] at this; exact this
  have o8 : ∀ {x : W} {n : Nat}, 16 ≤ n → n ≤ 64 → ¬ InRange x addr n → ¬ InRange x (addr + 8) 8 :=
    fun h1 h2 h => out (k := 8) (by omega) h2 h
  have o16 : ∀ {x : W} {n : Nat}, 24 ≤ n → n ≤ 64 → ¬ InRange x addr n → ¬ InRange x (addr + 16) 8 :=
    fun h1 h2 h => out (k := 16) (by omega) h2 h
  cases frame with
  | false =>
    refine ⟨_, rfl, rfl, rfl, ?_, ⟨fun i h => absurd h (Nat.not_lt_zero _), ?_⟩, (fun h => by cases h), ?_⟩
    · show (Mem.write64 _ addr _).read64 addr = _
      rw [read64_write64, e16]; rfl
    · show Mem.read64 (Mem.write64 _ addr _) (State.shadow _ - _) = 0
      have hs : ∀ m : Mem, (m.write64 addr (addr + 8 + 8)).read64 addr - BitVec.ofNat 64 (8 * (0 + 1)) =
          addr + 8 := by intro m; rw [read64_write64, e16]; bv_omega
      show Mem.read64 _ (Mem.read64 (Mem.write64 _ addr _) addr - BitVec.ofNat 64 (8 * (0 + 1))) = 0
      rw [hs, read64_write64_sep _ _ _ _ s8]
      exact read64_write64 _ _ _
    · intro x hx
      simp only [Bool.false_eq_true, if_false] at hx ⊢
      rw [write64_outRange _ _ _ _ (o0 (by omega) (by omega) hx),
        write64_outRange _ _ _ _ (o8 (by omega) (by omega) hx)]
  | true =>
    have hs : ∀ m : Mem, (m.write64 addr (addr + 8 + 8 + 8)).read64 addr = addr + 24 := by
      intro m; rw [read64_write64, e16, e24]
    refine ⟨_, rfl, rfl, rfl, hs _, ⟨fun i h => absurd h (Nat.not_lt_zero _), ?_⟩, fun _ => ?_, ?_⟩
    · show Mem.read64 _ (Mem.read64 (Mem.write64 _ addr _) addr - BitVec.ofNat 64 (8 * (0 + 1))) = 0
      have e : addr + 24 - BitVec.ofNat 64 (8 * (0 + 1)) = addr + 16 := by bv_omega
      rw [hs, e, e16, read64_write64_sep _ _ _ _ s16]
      exact read64_write64 _ _ _
    · show Mem.read64 _ (Mem.read64 (Mem.write64 _ addr _) addr - BitVec.ofNat 64 (8 * (1 + 1))) = 0
      have e : addr + 24 - BitVec.ofNat 64 (8 * (1 + 1)) = addr + 8 := by bv_omega
      rw [hs, e, e16, read64_write64_sep _ _ _ _ s8, read64_write64_sep _ _ _ _ s816]
      exact read64_write64 _ _ _
    · intro x hx
      simp only [if_true] at hx ⊢
      rw [e16, write64_outRange _ _ _ _ (o0 (by omega) (by omega) hx),
        write64_outRange _ _ _ _ (o16 (by omega) (by omega) hx),
        write64_outRange _ _ _ _ (o8 (by omega) (by omega) hx)]

/-- A number of executions of the same code. -/
inductive Repeated (code : Code) : Nat → State → State → Prop
  | zero (s : State) : Repeated code 0 s s
  | succ {k : Nat} {s s1 s2 : State} : Repeated code k s s1 → Exits code s1 s2 →
      Repeated code (k + 1) s s2

/-- C16, for the generated initialiser: 126 addresses fit into the memory it allocates, and the
next push is not stopped but stores behind it. -/
theorem C16_generated_overflow {addr : W} {s s1 : State}
    (h : initGenerated false true addr s = some s1) {code : Code} {d : Int} {n : Nat}
    {free : Reg → Prop} (hc : IsPush code d n free)
    (hret : Sep (s1.retAddr d) 8 addr (generatedSize + 8))
    (hsave : Sep (s1.regs .rsp - BitVec.ofNat 64 n) n addr (generatedSize + 8))
    (hrs : Sep (s1.retAddr d) 8 (s1.regs .rsp - BitVec.ofNat 64 n) n) :
    ∃ s2 s3, Repeated code 126 s1 s2 ∧ s2.shadow = addr + BitVec.ofNat 64 generatedSize ∧
      Exits code s2 s3 ∧ s3.mem.read64 (addr + BitVec.ofNat 64 generatedSize) =
        s1.mem.read64 (s1.retAddr d) := by
  have hg : generatedSize = 1024 := rfl
  obtain ⟨_, s1', h', hgs, _, hsh, _⟩ := C14_generated false addr s
  rw [h] at h'; cases h'
  simp only [Bool.false_eq_true, if_false] at hsh
  have psep : ∀ k, k ≤ 126 → ∀ t : State, t.gs = addr → t.regs .rsp = s1.regs .rsp →
      t.shadow = addr + BitVec.ofNat 64 (16 + 8 * k) → PushSep (t.retAddr d) n t := by
    intro k hk t h1 h2 h3
    have hr : regionSize = 8388608 := rfl
    have ea : t.retAddr d = s1.retAddr d := by rw [State.retAddr, h2]; rfl
    refine ⟨?_, ?_, ?_, ?_⟩
    · rw [h1, h3]
      have := sep_offsets addr (a := 16 + 8 * k) (n := 8) (b := 0) (m := 8) (by omega) (by omega)
        (.inr (by omega)) (by omega) (by omega)
      rwa [show addr + BitVec.ofNat 64 0 = addr by simp] at this
    · rw [ea, h2]; exact hrs
    · rw [h3, h2]
      refine (sep_sub_right hsave ?_).symm
      rw [off_toNat (by omega)]; omega
    · rw [h1, h2]
      exact (sep_mono hsave (Nat.le_refl _) (by omega)).symm
  have key : ∀ k, k ≤ 126 → ∃ t, Repeated code k s1 t ∧ t.gs = addr ∧ t.regs .rsp = s1.regs .rsp ∧
      t.shadow = addr + BitVec.ofNat 64 (16 + 8 * k) ∧
      t.mem.read64 (s1.retAddr d) = s1.mem.read64 (s1.retAddr d) := by
    intro k
    induction k with
    | zero => intro _; exact ⟨s1, .zero _, hgs, rfl, hsh, rfl⟩
    | succ k ih =>
      intro hk
      obtain ⟨t, h1, h2, h3, h4, h5⟩ := ih (by omega)
      obtain ⟨t', hx, hp⟩ := hc.run (psep k (by omega) t h2 h3 h4)
      refine ⟨t', .succ h1 hx, by rw [hp.same.gs, h2], by rw [hp.same.rsp, h3], ?_, ?_⟩
      · rw [hp.pointer, h4]
        have : 16 + 8 * (k + 1) = 16 + 8 * k + 8 := by omega
        rw [this, BitVec.ofNat_add _ 8, ← BitVec.add_assoc]; rfl
      · rw [← h5]
        refine read64_eq _ _ _ fun x hx' => hp.same.mem x ?_
        intro p hp'
        rcases List.mem_cons.1 hp' with rfl | hp'
        · rw [h4]
          refine sep_not_inRange (sep_sub_right hret ?_) hx'
          rw [off_toNat (by omega)]; omega
        rcases List.mem_cons.1 hp' with rfl | hp'
        · rw [h2]
          exact sep_not_inRange (sep_mono hret (Nat.le_refl _) (by omega)) hx'
        rcases List.mem_cons.1 hp' with rfl | hp'
        · rw [h3]; exact sep_not_inRange hrs hx'
        · cases hp'
  obtain ⟨t, h1, h2, h3, h4, h5⟩ := key 126 (Nat.le_refl _)
  obtain ⟨t', hx, hp⟩ := hc.run (psep 126 (by omega) t h2 h3 h4)
  refine ⟨t, t', h1, h4, hx, ?_⟩
  have := hp.recorded
  rw [h4] at this
  have ea : t.regs .rsp + BitVec.ofInt 64 d = s1.retAddr d := by rw [h3]; rfl
  rw [ea, h5] at this
  exact this

/-- The conditions hold: the default push run with the stack far from the allocated memory. -/
example : ∃ s1 code free, initGenerated false true 0x100000 (sampleState 0x401000 []) = some s1 ∧
    IsPush code 0 16 free ∧ Sep (s1.retAddr 0) 8 0x100000 (generatedSize + 8) ∧
    Sep (s1.regs .rsp - BitVec.ofNat 64 16) 16 0x100000 (generatedSize + 8) ∧
    Sep (s1.retAddr 0) 8 (s1.regs .rsp - BitVec.ofNat 64 16) 16 := by
  obtain ⟨code, free, hc⟩ := default_isPush
  obtain ⟨_, s1, h1, _, h2, _⟩ := C14_generated false 0x100000 (sampleState 0x401000 [])
  refine ⟨s1, code, free, h1, hc, ?_, ?_, ?_⟩ <;> simp only [State.retAddr, h2] <;>
    exact sep_of_le (by decide) (by decide) (by decide)

/-! ## Unused registers and the red zone (C23, C52) -/

/-- C23.  Functions that call others or are assumed unsafe are left alone. -/
theorem C23_skipped (insns : List RegInsn) (s : FuncSummary)
    (h : s.assumeUnsafe = true ∨ s.callees ≠ []) : unusedRegisters insns s = some s := by
  unfold unusedRegisters
  by_cases ha : s.assumeUnsafe = true
  · rw [if_pos ha]
  · rw [if_neg ha]
    rcases h with h | h
    · exact absurd h ha
    · rw [if_pos (List.length_pos_iff.2 h)]

theorem urInsn_moves {u u' : UnusedState} {i : RegInsn} (h : urInsn u i = some u') :
    u'.moveDownSP = true ↔ u.moveDownSP = true ∨ ∃ x, i.height = some x ∧ x ≤ -136 := by
  unfold urInsn at h
  simp only [Option.bind_eq_bind, Option.bind_eq_some_iff] at h
  obtain ⟨r, _, w, _, h⟩ := h
  have : u'.moveDownSP = match i.height with
    | some h => u.moveDownSP || decide (-8 - h ≥ 128)
    | none => u.moveDownSP := by
    split at h <;> cases h <;> rfl
  rw [this]
  cases i.height with
  | none => simp
  | some x =>
    simp only [Bool.or_eq_true, decide_eq_true_eq, Option.some.injEq, exists_eq_left']
    constructor
    · rintro (h | h)
      · exact .inl h
      · exact .inr (by omega)
    · rintro (h | h)
      · exact .inl h
      · exact .inr (by omega)

theorem urFold_moves : ∀ (insns : List RegInsn) {u u' : UnusedState},
    insns.foldlM urInsn u = some u' → (u'.moveDownSP = true ↔ u.moveDownSP = true ∨
      ∃ i, i ∈ insns ∧ ∃ x, i.height = some x ∧ x ≤ -136) := by
  intro insns
  induction insns with
  | nil => intro u u' h; cases h; simp
  | cons i insns ih =>
    intro u u' h
    simp only [List.foldlM_cons, Option.bind_eq_bind, Option.bind_eq_some_iff] at h
    obtain ⟨v, h1, h2⟩ := h
    rw [ih h2, urInsn_moves h1, or_assoc]
    constructor
    · rintro (h | h | ⟨j, hj, h⟩)
      · exact .inl h
      · exact .inr ⟨i, List.mem_cons_self, h⟩
      · exact .inr ⟨j, List.mem_cons_of_mem _ hj, h⟩
    · rintro (h | ⟨j, hj, h⟩)
      · exact .inl h
      · rcases List.mem_cons.1 hj with rfl | hj
        · exact .inr (.inl h)
        · exact .inr (.inr ⟨j, hj, h⟩)

/-- C52.  A leaf function is recorded to move its stack pointer down exactly if before some
instruction it is 128 bytes or more below the return address (height -136 in Dyninst's
counting, where the return address is at -8). -/
theorem C52_moves_down (insns : List RegInsn) (s s' : FuncSummary) (ha : s.assumeUnsafe = false)
    (hc : s.callees = []) (h : unusedRegisters insns s = some s') :
    s'.moveDownSP = true ↔ s.moveDownSP = true ∨
      ∃ i, i ∈ insns ∧ ∃ x, i.height = some x ∧ x ≤ -136 := by
  unfold unusedRegisters at h
  rw [if_neg (by simp [ha]), if_neg (by simp [hc])] at h
  simp only [Option.bind_eq_bind, Option.bind_eq_some_iff] at h
  obtain ⟨u, h1, h2⟩ := h
  cases h2
  exact urFold_moves insns h1

example : (unusedRegisters [{ height := some (-8) }, { height := some (-136) }] {}).map
    (·.moveDownSP) = some true ∧
    (unusedRegisters [{ height := some (-8) }, { height := some (-135) }] {}).map
    (·.moveDownSP) = some false := by decide

/-! ## Which writes the stack height pass reports (C51) -/

/-- Instruction address `a` is listed for block `b`. -/
def Listed (m : List (Blk × List Nat)) (b : Blk) (a : Nat) : Prop := ∃ l, (b, l) ∈ m ∧ a ∈ l

theorem mem_setInsert_nat (l : List Nat) (x y : Nat) : y ∈ setInsert l x ↔ y ∈ l ∨ y = x := by
  unfold setInsert
  split
  · rename_i h
    constructor
    · exact .inl
    · rintro (h' | rfl)
      · exact h'
      · simpa using h
  · simp [or_comm]

theorem listed_insert (m : List (Blk × List Nat)) (b : Blk) (a : Nat) (c : Blk) (x : Nat) :
    Listed (insertUnknown m b a) c x ↔ Listed m c x ∨ (c = b ∧ x = a) := by
  unfold Listed
  induction m with
  | nil =>
    unfold insertUnknown
    constructor
    · rintro ⟨l, h, hx⟩
      have := List.mem_singleton.1 h
      injection this with h1 h2
      subst h2
      exact .inr ⟨h1, List.mem_singleton.1 hx⟩
    · rintro (⟨l, h, _⟩ | ⟨rfl, rfl⟩)
      · cases h
      · exact ⟨[x], List.mem_singleton.2 rfl, List.mem_singleton.2 rfl⟩
  | cons e m ih =>
    obtain ⟨b', as⟩ := e
    unfold insertUnknown
    split
    · rename_i hb
      subst hb
      constructor
      · rintro ⟨l, h, hx⟩
        rcases List.mem_cons.1 h with h | h
        · injection h with h1 h2
          subst h1 h2
          rcases (mem_setInsert_nat _ _ _).1 hx with hx | rfl
          · exact .inl ⟨as, List.mem_cons_self, hx⟩
          · exact .inr ⟨rfl, rfl⟩
        · exact .inl ⟨l, List.mem_cons_of_mem _ h, hx⟩
      · rintro (⟨l, h, hx⟩ | ⟨rfl, rfl⟩)
        · rcases List.mem_cons.1 h with h | h
          · injection h with h1 h2
            subst h1 h2
            exact ⟨_, List.mem_cons_self, (mem_setInsert_nat _ _ _).2 (.inl hx)⟩
          · exact ⟨l, List.mem_cons_of_mem _ h, hx⟩
        · exact ⟨_, List.mem_cons_self, (mem_setInsert_nat _ _ _).2 (.inr rfl)⟩
    · constructor
      · rintro ⟨l, h, hx⟩
        rcases List.mem_cons.1 h with h | h
        · exact .inl ⟨l, by rw [h]; exact List.mem_cons_self, hx⟩
        · rcases ih.1 ⟨l, h, hx⟩ with ⟨l', h', hx'⟩ | h'
          · exact .inl ⟨l', List.mem_cons_of_mem _ h', hx'⟩
          · exact .inr h'
      · rintro (⟨l, h, hx⟩ | h)
        · rcases List.mem_cons.1 h with h | h
          · exact ⟨l, by rw [h]; exact List.mem_cons_self, hx⟩
          · obtain ⟨l', h', hx'⟩ := ih.2 (.inl ⟨l, h, hx⟩)
            exact ⟨l', List.mem_cons_of_mem _ h', hx'⟩
        · obtain ⟨l', h', hx'⟩ := ih.2 (.inr h)
          exact ⟨l', List.mem_cons_of_mem _ h', hx'⟩

/-- The instruction at `a` in block `b` writes memory, is no call or return, and Dyninst cannot
tell where one of its results goes. -/
def WritesUnknown (info : StackInfo) (b : Blk) (a : Nat) : Prop :=
  ∃ i, i ∈ info.insns b ∧ i.addr = a ∧ i.frameSwitch = false ∧ i.writesMemory = true ∧
    AbsLoc.unknown ∈ i.outs

/-- An instruction of block `b` writes to the stack at the return address or above it. -/
def WritesAbove (info : StackInfo) (b : Blk) : Prop :=
  ∃ i, i ∈ info.insns b ∧ i.frameSwitch = false ∧ i.writesMemory = true ∧
    ∃ off, AbsLoc.stack off ∈ i.outs ∧ off ≥ -8

theorem shAssigns_listed (b : Blk) (a : Nat) : ∀ (outs : List AbsLoc) (s : FuncSummary) (c : Blk) (x : Nat),
    (Listed (outs.foldl (shAssign b a) s).unknownWrites c x ↔
      Listed s.unknownWrites c x ∨ (c = b ∧ x = a ∧ AbsLoc.unknown ∈ outs)) ∧
    ((outs.foldl (shAssign b a) s).selfUnsafeWrites = true ↔
      s.selfUnsafeWrites = true ∨ ∃ off, AbsLoc.stack off ∈ outs ∧ off ≥ -8) := by
  intro outs
  induction outs with
  | nil => intro s c x; simp
  | cons o outs ih =>
    intro s c x
    obtain ⟨i1, i2⟩ := ih (shAssign b a s o) c x
    simp only [List.foldl_cons]
    rw [i1, i2]
    cases o with
    | unknown =>
      simp only [shAssign, listed_insert, List.mem_cons]
      constructor
      · constructor
        · rintro ((h | ⟨rfl, rfl⟩) | ⟨h1, h2, h3⟩)
          · exact .inl h
          · exact .inr ⟨rfl, rfl, .inl trivial⟩
          · exact .inr ⟨h1, h2, .inr h3⟩
        · rintro (h | ⟨h1, h2, h3⟩)
          · exact .inl (.inl h)
          · exact .inl (.inr ⟨h1, h2⟩)
      · simp
    | stack off =>
      simp only [shAssign, List.mem_cons]
      constructor
      · split <;> simp
      · by_cases h : off ≥ -8
        · rw [if_pos h]
          constructor
          · intro _; exact .inr ⟨off, .inl rfl, h⟩
          · intro _; exact .inl rfl
        · rw [if_neg h]
          constructor
          · rintro (h' | ⟨x, h1, h2⟩)
            · exact .inl h'
            · exact .inr ⟨x, .inr h1, h2⟩
          · rintro (h' | ⟨x, h1 | h1, h2⟩)
            · exact .inl h'
            · cases h1; exact absurd h2 h
            · exact .inr ⟨x, h1, h2⟩
    | heap => simp [shAssign]
    | register => simp [shAssign]

theorem shInsns_listed (b : Blk) : ∀ (l : List StackInsn) (s : FuncSummary) (c : Blk) (x : Nat),
    (Listed (l.foldl (shInsn b) s).unknownWrites c x ↔ Listed s.unknownWrites c x ∨
      (c = b ∧ ∃ i, i ∈ l ∧ i.addr = x ∧ i.frameSwitch = false ∧ i.writesMemory = true ∧
        AbsLoc.unknown ∈ i.outs)) ∧
    ((l.foldl (shInsn b) s).selfUnsafeWrites = true ↔ s.selfUnsafeWrites = true ∨
      ∃ i, i ∈ l ∧ i.frameSwitch = false ∧ i.writesMemory = true ∧
        ∃ off, AbsLoc.stack off ∈ i.outs ∧ off ≥ -8) := by
  intro l
  induction l with
  | nil => intro s c x; simp
  | cons i l ih =>
    intro s c x
    obtain ⟨i1, i2⟩ := ih (shInsn b s i) c x
    simp only [List.foldl_cons]
    rw [i1, i2]
    have key : (Listed (shInsn b s i).unknownWrites c x ↔ Listed s.unknownWrites c x ∨
        (c = b ∧ i.addr = x ∧ i.frameSwitch = false ∧ i.writesMemory = true ∧
          AbsLoc.unknown ∈ i.outs)) ∧
      ((shInsn b s i).selfUnsafeWrites = true ↔ s.selfUnsafeWrites = true ∨
        (i.frameSwitch = false ∧ i.writesMemory = true ∧
          ∃ off, AbsLoc.stack off ∈ i.outs ∧ off ≥ -8)) := by
      unfold shInsn
      cases hf : i.frameSwitch with
      | true => simp
      | false =>
        cases hw : i.writesMemory with
        | false => simp
        | true =>
          simp only [Bool.false_eq_true, if_false, if_true, true_and]
          obtain ⟨a1, a2⟩ := shAssigns_listed b i.addr i.outs s c x
          rw [a1, a2]
          constructor
          · constructor
            · rintro (h | ⟨h1, h2, h3⟩)
              · exact .inl h
              · exact .inr ⟨h1, h2.symm, h3⟩
            · rintro (h | ⟨h1, h2, h3⟩)
              · exact .inl h
              · exact .inr ⟨h1, h2.symm, h3⟩
          · exact Iff.rfl
    rw [key.1, key.2]
    constructor
    · constructor
      · rintro ((h | ⟨h1, h2⟩) | ⟨h1, j, hj, h2⟩)
        · exact .inl h
        · exact .inr ⟨h1, i, List.mem_cons_self, h2⟩
        · exact .inr ⟨h1, j, List.mem_cons_of_mem _ hj, h2⟩
      · rintro (h | ⟨h1, j, hj, h2⟩)
        · exact .inl (.inl h)
        · rcases List.mem_cons.1 hj with rfl | hj
          · exact .inl (.inr ⟨h1, h2⟩)
          · exact .inr ⟨h1, j, hj, h2⟩
    · constructor
      · rintro ((h | h) | ⟨j, hj, h⟩)
        · exact .inl h
        · exact .inr ⟨i, List.mem_cons_self, h⟩
        · exact .inr ⟨j, List.mem_cons_of_mem _ hj, h⟩
      · rintro (h | ⟨j, hj, h⟩)
        · exact .inl (.inl h)
        · rcases List.mem_cons.1 hj with rfl | hj
          · exact .inl (.inr h)
          · exact .inr ⟨j, hj, h⟩

theorem shHeights_writes (co : CodeObj) (info : StackInfo) (b : Blk) (s : FuncSummary) :
    (shHeights co info b s).unknownWrites = s.unknownWrites ∧
    (shHeights co info b s).selfUnsafeWrites = s.selfUnsafeWrites := by
  unfold shHeights
  cases info.heightEnd b <;> cases info.heightStart b <;> exact ⟨rfl, rfl⟩

/-- **C51, exactly.** The unknown writes listed after the pass are those listed before and the
instructions with an unknown result; and the flag of unsafe writes is set exactly for a write to
the stack at or above the return address. -/
theorem C51_writes (co : CodeObj) (info : StackInfo) (f : Func) (s : FuncSummary)
    (ha : s.assumeUnsafe = false) :
    (∀ b a, Listed (stackHeight co info f s).unknownWrites b a ↔
      Listed s.unknownWrites b a ∨ (b ∈ co.blocks f ∧ WritesUnknown info b a)) ∧
    ((stackHeight co info f s).selfUnsafeWrites = true ↔
      s.selfUnsafeWrites = true ∨ ∃ b, b ∈ co.blocks f ∧ WritesAbove info b) := by
  unfold stackHeight
  rw [if_neg (by simp [ha])]
  have key : ∀ (bs : List Blk) (s : FuncSummary),
      (∀ b a, Listed (bs.foldl (shBlock co info) s).unknownWrites b a ↔
        Listed s.unknownWrites b a ∨ (b ∈ bs ∧ WritesUnknown info b a)) ∧
      ((bs.foldl (shBlock co info) s).selfUnsafeWrites = true ↔
        s.selfUnsafeWrites = true ∨ ∃ b, b ∈ bs ∧ WritesAbove info b) := by
    intro bs
    induction bs with
    | nil => intro s; simp
    | cons c bs ih =>
      intro s
      obtain ⟨i1, i2⟩ := ih (shBlock co info s c)
      simp only [List.foldl_cons]
      obtain ⟨w1, w2⟩ := shHeights_writes co info c s
      constructor
      · intro b a
        rw [i1]
        have := (shInsns_listed c (info.insns c) (shHeights co info c s) b a).1
        rw [w1] at this
        unfold shBlock
        rw [this]
        constructor
        · rintro ((h | ⟨rfl, h⟩) | ⟨h1, h2⟩)
          · exact .inl h
          · exact .inr ⟨List.mem_cons_self, h⟩
          · exact .inr ⟨List.mem_cons_of_mem _ h1, h2⟩
        · rintro (h | ⟨h1, h2⟩)
          · exact .inl (.inl h)
          · rcases List.mem_cons.1 h1 with rfl | h1
            · exact .inl (.inr ⟨rfl, h2⟩)
            · exact .inr ⟨h1, h2⟩
      · rw [i2]
        have := (shInsns_listed c (info.insns c) (shHeights co info c s) 0 0).2
        rw [w2] at this
        unfold shBlock
        rw [this]
        constructor
        · rintro ((h | h) | ⟨b, h1, h2⟩)
          · exact .inl h
          · exact .inr ⟨c, List.mem_cons_self, h⟩
          · exact .inr ⟨b, List.mem_cons_of_mem _ h1, h2⟩
        · rintro (h | ⟨b, h1, h2⟩)
          · exact .inl (.inl h)
          · rcases List.mem_cons.1 h1 with rfl | h1
            · exact .inl (.inr h2)
            · exact .inr ⟨b, h1, h2⟩
  exact key (co.blocks f) s

/-- A block that stores through a pointer Dyninst knows nothing about. -/
example (co : CodeObj) (h : (2 : Blk) ∈ co.blocks 0) (a b : Blk → Option Int) :
    Listed (stackHeight co ⟨fun b => if b = 2 then
      [{ addr := 7, writesMemory := true, outs := [.unknown] }] else [], a, b⟩ 0 {}).unknownWrites 2 7 :=
  ((C51_writes co _ 0 {} rfl).1 2 7).2 (.inr ⟨h, _, List.mem_cons_self, rfl, rfl, rfl,
    List.mem_cons_self⟩)

/-! ## The scans for a place with dead registers find the best one (C26, C27) -/

/-- The scan for a push may pass this instruction. -/
def PushPast (i : BInsn) : Prop := i.op = .push ∨ (i.writesMemory = false ∧ i.movesSP = false)

/-- The scan for a check may pass this instruction. -/
def CheckPast (i : BInsn) : Prop :=
  i.op = .ret ∨ (i.writesMemory = false ∧ (i.op = .pop ∨ (i.movesSP = false ∧ i.readsFlags = false)))

theorem improve_most (sc : Scan) (a h : Nat) (d : List Reg) (hs : sc.saveCount ≤ 2) :
    sc.saveCount ≤ (sc.improve a h d).saveCount ∧ min 2 d.length ≤ (sc.improve a h d).saveCount ∧
      (sc.improve a h d).saveCount ≤ 2 := by
  unfold Scan.improve
  split
  · dsimp only
    split <;> omega
  · omega

theorem improve_addr (sc : Scan) (a h : Nat) (d : List Reg) (ha : 0 < a)
    (hs : 0 < sc.saveCount → 0 < sc.newAddr) :
    0 < (sc.improve a h d).saveCount → 0 < (sc.improve a h d).newAddr := by
  unfold Scan.improve
  split
  · intro _; exact ha
  · exact hs

theorem entryScan_most : ∀ (insns : List BInsn) (h : Nat) (sc : Scan), sc.saveCount ≤ 2 →
    sc.saveCount ≤ (entryScan insns h sc).saveCount ∧
    ∀ pre i rest, insns = pre ++ i :: rest → (∀ j, j ∈ pre → PushPast j) →
      min 2 (deadRegs (i :: rest)).length ≤ (entryScan insns h sc).saveCount := by
  intro insns
  induction insns with
  | nil =>
    intro h sc hs
    refine ⟨Nat.le_refl _, fun pre i rest he => ?_⟩
    cases pre <;> cases he
  | cons j insns ih =>
    intro h sc hs
    obtain ⟨c1, c2, c3⟩ := improve_most sc j.addr h (deadRegs (j :: insns)) hs
    unfold entryScan
    dsimp only
    generalize sc.improve j.addr h (deadRegs (j :: insns)) = sc' at c1 c2 c3 ⊢
    have here : ∀ {r : Scan}, sc'.saveCount ≤ r.saveCount → (¬ PushPast j ∨ r.saveCount = 2) →
        sc.saveCount ≤ r.saveCount ∧
        ∀ pre i rest, j :: insns = pre ++ i :: rest → (∀ j, j ∈ pre → PushPast j) →
          min 2 (deadRegs (i :: rest)).length ≤ r.saveCount := by
      intro r hr hn
      refine ⟨Nat.le_trans c1 hr, fun pre i rest he hp => ?_⟩
      rcases hn with hn | hn
      · cases pre with
        | nil => injection he with h1 h2; subst h1 h2; omega
        | cons p pre =>
          injection he with h1 h2
          subst h1
          exact absurd (hp _ List.mem_cons_self) hn
      · omega
    have go : ∀ h', sc.saveCount ≤ (entryScan insns h' sc').saveCount ∧
        ∀ pre i rest, j :: insns = pre ++ i :: rest → (∀ j, j ∈ pre → PushPast j) →
          min 2 (deadRegs (i :: rest)).length ≤ (entryScan insns h' sc').saveCount := by
      intro h'
      obtain ⟨i1, i2⟩ := ih h' sc' c3
      refine ⟨Nat.le_trans c1 i1, fun pre i rest he hp => ?_⟩
      cases pre with
      | nil => injection he with h1 h2; subst h1 h2; omega
      | cons p pre =>
        injection he with h1 h2
        exact i2 pre i rest h2 fun j hj => hp j (List.mem_cons_of_mem _ hj)
    split
    · rename_i h2; exact here (Nat.le_refl _) (.inr h2)
    split
    · exact go _
    rename_i hop
    split
    · rename_i hw
      refine here (Nat.le_refl _) (.inl ?_)
      rintro (h | ⟨h, _⟩)
      · exact hop h
      · rw [hw] at h; cases h
    split
    · rename_i hw
      refine here (Nat.le_refl _) (.inl ?_)
      rintro (h | ⟨_, h⟩)
      · exact hop h
      · rw [hw] at h; cases h
    · exact go _

theorem entryScan_addr : ∀ (insns : List BInsn) (h : Nat) (sc : Scan),
    (∀ i, i ∈ insns → 0 < i.addr) → (0 < sc.saveCount → 0 < sc.newAddr) →
    0 < (entryScan insns h sc).saveCount → 0 < (entryScan insns h sc).newAddr := by
  intro insns
  induction insns with
  | nil => intro h sc _ hs; exact hs
  | cons j insns ih =>
    intro h sc ha hs
    have hi := improve_addr sc j.addr h (deadRegs (j :: insns)) (ha j List.mem_cons_self) hs
    unfold entryScan
    dsimp only
    generalize sc.improve j.addr h (deadRegs (j :: insns)) = sc' at hi ⊢
    have := fun h' => ih h' sc' (fun i hi => ha i (List.mem_cons_of_mem _ hi)) hi
    split
    · exact hi
    split
    · exact this _
    split
    · exact hi
    split
    · exact hi
    · exact this _

/-- **C26, best place.** If at some place of the block, before which only pushes and instructions
stand which neither write memory nor move the stack pointer, registers are dead, then the scan
finds a place, with as many dead registers (two are enough). -/
theorem C26_entry_best (insns : List BInsn) (ha : ∀ i, i ∈ insns → 0 < i.addr) (pre : List BInsn)
    (i : BInsn) (rest : List BInsn) (he : insns = pre ++ i :: rest) (hp : ∀ j, j ∈ pre → PushPast j)
    (hd : deadRegs (i :: rest) ≠ []) :
    ∃ mid, entryData insns = some mid ∧ min 2 (deadRegs (i :: rest)).length ≤ mid.saveCount := by
  have h1 := (entryScan_most insns 0 {} (Nat.zero_le _)).2 pre i rest he hp
  have h2 := entryScan_addr insns 0 {} ha (fun h => absurd h (Nat.lt_irrefl _))
  have : 0 < (deadRegs (i :: rest)).length := List.length_pos_iff.2 hd
  refine ⟨_, by unfold entryData; exact if_pos ⟨by omega, h2 (by omega)⟩, h1⟩

theorem exitScan_most : ∀ (rev suffix : List BInsn) (h : Nat) (sc : Scan), sc.saveCount ≤ 2 →
    sc.saveCount ≤ (exitScan rev suffix h sc).saveCount ∧
    ∀ post i pre, rev = post ++ i :: pre → (∀ j, j ∈ post → CheckPast j) → CheckPast i → i.op ≠ .ret →
      min 2 (deadRegs (i :: (post.reverse ++ suffix))).length ≤ (exitScan rev suffix h sc).saveCount := by
  intro rev
  induction rev with
  | nil =>
    intro suffix h sc hs
    refine ⟨Nat.le_refl _, fun post i pre he => ?_⟩
    cases post <;> cases he
  | cons j rev ih =>
    intro suffix h sc hs
    unfold exitScan
    have shift : ∀ (post : List BInsn) (i : BInsn), i :: ((j :: post).reverse ++ suffix) =
        i :: (post.reverse ++ j :: suffix) := by intro post i; simp
    split
    · rename_i hr
      obtain ⟨i1, i2⟩ := ih (j :: suffix) h sc hs
      refine ⟨i1, fun post i pre he hp hi hir => ?_⟩
      cases post with
      | nil => injection he with h1 h2; subst h1; exact absurd hr hir
      | cons p post =>
        injection he with h1 h2
        subst h1
        rw [shift]
        exact i2 post i pre h2 (fun j hj => hp j (List.mem_cons_of_mem _ hj)) hi hir
    rename_i hr
    have stop : ¬ CheckPast j → sc.saveCount ≤ sc.saveCount ∧
        ∀ post i pre, j :: rev = post ++ i :: pre → (∀ j, j ∈ post → CheckPast j) → CheckPast i →
          i.op ≠ .ret → min 2 (deadRegs (i :: (post.reverse ++ suffix))).length ≤ sc.saveCount := by
      intro hn
      refine ⟨Nat.le_refl _, fun post i pre he hp hi _ => ?_⟩
      cases post with
      | nil => injection he with h1 h2; subst h1; exact absurd hi hn
      | cons p post =>
        injection he with h1 h2
        subst h1
        exact absurd (hp _ List.mem_cons_self) hn
    split
    · rename_i hw
      refine stop ?_
      rintro (h | ⟨h, _⟩)
      · exact hr h
      · rw [hw] at h; cases h
    split
    · rename_i hw
      refine stop ?_
      rintro (h | ⟨_, h | ⟨h1, h2⟩⟩)
      · exact hr h
      · exact hw.1 h
      · rcases hw.2 with hw | hw
        · rw [hw] at h1; cases h1
        · rw [hw] at h2; cases h2
    · dsimp only
      generalize (if j.op = .pop then h + 8 else h) = h'
      obtain ⟨c1, c2, c3⟩ := improve_most sc j.addr h' (deadRegs (j :: suffix)) hs
      generalize sc.improve j.addr h' (deadRegs (j :: suffix)) = sc' at c1 c2 c3 ⊢
      split
      · rename_i h2
        exact ⟨c1, fun post i pre _ _ _ _ => by omega⟩
      · obtain ⟨i1, i2⟩ := ih (j :: suffix) h' sc' c3
        refine ⟨Nat.le_trans c1 i1, fun post i pre he hp hi hir => ?_⟩
        cases post with
        | nil => injection he with h1 h2; subst h1; simp only [List.reverse_nil, List.nil_append]; omega
        | cons p post =>
          injection he with h1 h2
          subst h1
          rw [shift]
          exact i2 post i pre h2 (fun j hj => hp j (List.mem_cons_of_mem _ hj)) hi hir

theorem exitScan_addr : ∀ (rev suffix : List BInsn) (h : Nat) (sc : Scan),
    (∀ i, i ∈ rev → 0 < i.addr) → (0 < sc.saveCount → 0 < sc.newAddr) →
    0 < (exitScan rev suffix h sc).saveCount → 0 < (exitScan rev suffix h sc).newAddr := by
  intro rev
  induction rev with
  | nil => intro suffix h sc _ hs; exact hs
  | cons j rev ih =>
    intro suffix h sc ha hs
    have tl := fun i (hi : i ∈ rev) => ha i (List.mem_cons_of_mem _ hi)
    unfold exitScan
    split
    · exact ih _ _ _ tl hs
    split
    · exact hs
    split
    · exact hs
    · dsimp only
      generalize (if j.op = .pop then h + 8 else h) = h'
      have hi := improve_addr sc j.addr h' (deadRegs (j :: suffix)) (ha j List.mem_cons_self) hs
      generalize sc.improve j.addr h' (deadRegs (j :: suffix)) = sc' at hi ⊢
      split
      · exact hi
      · exact ih _ _ _ tl hi

/-- **C27, best place.** If at some place of the block, behind which only returns, pops and
instructions stand which neither write memory, move the stack pointer nor read flags, registers
are dead, then the scan finds a place, with as many dead registers (two are enough). -/
theorem C27_exit_best (insns : List BInsn) (ha : ∀ i, i ∈ insns → 0 < i.addr) (pre : List BInsn)
    (i : BInsn) (post : List BInsn) (he : insns = pre ++ i :: post)
    (hp : ∀ j, j ∈ i :: post → CheckPast j) (hi : i.op ≠ .ret) (hd : deadRegs (i :: post) ≠ []) :
    ∃ mid, exitData insns = some mid ∧ min 2 (deadRegs (i :: post)).length ≤ mid.saveCount := by
  have hrev : insns.reverse = post.reverse ++ i :: pre.reverse := by rw [he]; simp
  have h1 := (exitScan_most insns.reverse [] 0 {} (Nat.zero_le _)).2 post.reverse i pre.reverse hrev
    (fun j hj => hp j (List.mem_cons_of_mem _ (List.mem_reverse.1 hj))) (hp i List.mem_cons_self) hi
  rw [List.reverse_reverse, List.append_nil] at h1
  have h2 := exitScan_addr insns.reverse [] 0 {} (fun i hi => ha i (List.mem_reverse.1 hi))
    (fun h => absurd h (Nat.lt_irrefl _))
  have : 0 < (deadRegs (i :: post)).length := List.length_pos_iff.2 hd
  refine ⟨_, by unfold exitData; exact if_pos ⟨by omega, h2 (by omega)⟩, h1⟩

/-- `push rax; lea rax; lea rcx`: the best place is behind the push. -/
example : ∃ mid, entryData [pushInsn 16 .rax 8, leaInsn 17 .rax .rbx, leaInsn 20 .rcx .rbx] = some mid ∧
    2 ≤ mid.saveCount :=
  C26_entry_best _ (by decide) [pushInsn 16 .rax 8] _ _ rfl
    (fun j hj => by rw [List.mem_singleton.1 hj]; exact .inl rfl) (by decide)

/-- `lea rax; pop rbx; pop rbp; ret`. -/
example : ∃ mid, exitData [leaInsn 16 .rax .rbx, popInsn 20 .rbx, popInsn 21 .rbp, retInsn 22] =
    some mid ∧ 2 ≤ mid.saveCount :=
  C27_exit_best _ (by decide) [leaInsn 16 .rax .rbx] (popInsn 20 .rbx) _ rfl
    (fun j hj => by
      rcases List.mem_cons.1 hj with rfl | hj
      · exact .inr ⟨rfl, .inl rfl⟩
      rcases List.mem_cons.1 hj with rfl | hj
      · exact .inr ⟨rfl, .inl rfl⟩
      rcases List.mem_cons.1 hj with rfl | hj
      · exact .inl rfl
      · cases hj) (by decide) (by decide)

/-! ## The share saved by compression (C50) -/

/-- C50.  The share reported, in hundredths of a percent, is the share of lines left out,
rounded up. -/
theorem C50_share {kept depth r : Nat} (hk : kept ≤ depth) (h : ratio kept depth = some r) :
    r ≤ 10000 ∧ 10000 * (depth - kept) ≤ r * depth ∧ r * depth < 10000 * (depth - kept) + depth := by
  unfold ratio at h
  split at h
  · cases h
  rename_i hd
  injection h with h
  subst h
  have hpos : 0 < depth := Nat.pos_of_ne_zero hd
  have hq : kept * 10000 / depth ≤ 10000 := by
    apply Nat.div_le_of_le_mul
    rw [Nat.mul_comm depth]
    exact Nat.le_trans (Nat.mul_le_mul_right _ hk) (by rw [Nat.mul_comm]; exact Nat.le_refl _)
  have h1 := Nat.div_mul_le_self (kept * 10000) depth
  have h2 : kept * 10000 < (kept * 10000 / depth + 1) * depth := by
    have := Nat.lt_div_mul_add hpos (a := kept * 10000)
    rw [Nat.add_mul, Nat.one_mul]; exact this
  generalize kept * 10000 / depth = q at hq h1 h2
  rw [Nat.add_mul, Nat.one_mul] at h2
  rw [Nat.sub_mul, Nat.mul_sub]
  have h3 : q * depth ≤ 10000 * depth := Nat.mul_le_mul_right _ hq
  omega

example : ratio 2 3 = some 3334 := by decide

end Verif
