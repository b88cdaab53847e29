import Verif.Local
import Verif.Props.InterProc

/-!
# C21, C22, C30, C51: size filter, stack writes, unsafe blocks and calls
-/

namespace Verif

/-! ## C21 -/

theorem foldl_max_le (l : List Blk) (g : Blk → Nat) (a n : Nat) :
    l.foldl (fun e b => max e (g b)) a ≤ n ↔ a ≤ n ∧ ∀ b ∈ l, g b ≤ n := by
  induction l generalizing a with
  | nil => simp
  | cons x l ih =>
    rw [List.foldl_cons, ih]
    constructor
    · rintro ⟨h1, h2⟩
      refine ⟨by omega, fun b hb => ?_⟩
      rcases List.mem_cons.mp hb with rfl | hb
      · omega
      · exact h2 b hb
    · rintro ⟨h1, h2⟩
      exact ⟨by have := h2 x (by simp); omega, fun b hb => h2 b (by simp [hb])⟩

/-- The function extends over more than 20000 bytes: one of its exit or return blocks ends
that far after its start. -/
def Oversized (co : CodeObj) (f : Func) : Prop :=
  ∃ b, (b ∈ co.exitBlocks f ∨ b ∈ co.returnBlocks f) ∧ co.endAddr b > co.addr f + 20000

/-- **C21, exactness.** The filter assumes a function unsafe exactly when it is oversized or
was already assumed unsafe, and changes nothing else. -/
theorem C21_exact (co : CodeObj) (f : Func) (s : FuncSummary) :
    ((largeFilter co f s).assumeUnsafe = true ↔ s.assumeUnsafe = true ∨ Oversized co f) ∧
    largeFilter co f s = { s with assumeUnsafe := (largeFilter co f s).assumeUnsafe } := by
  have hle : lastEnd co f ≤ co.addr f + 20000 ↔ ¬ Oversized co f := by
    unfold lastEnd Oversized
    rw [foldl_max_le, foldl_max_le]
    constructor
    · rintro ⟨⟨_, h1⟩, h2⟩ ⟨b, hb | hb, h⟩
      · have := h1 b hb; omega
      · have := h2 b hb; omega
    · intro h
      refine ⟨⟨by omega, fun b hb => ?_⟩, fun b hb => ?_⟩
      · exact Nat.le_of_not_lt fun hlt => h ⟨b, .inl hb, hlt⟩
      · exact Nat.le_of_not_lt fun hlt => h ⟨b, .inr hb, hlt⟩
  unfold largeFilter cutoffSize
  split
  · rename_i h; exact ⟨by simp [h], rfl⟩
  · rename_i h
    split
    · rename_i hlt
      have : ¬ Oversized co f := hle.mp (by omega)
      exact ⟨by simp [h, this], rfl⟩
    · split
      · rename_i hlt
        have : Oversized co f := by
          refine Classical.byContradiction fun hn => ?_
          have := hle.mpr hn
          omega
        exact ⟨by simp [this], rfl⟩
      · have : ¬ Oversized co f := hle.mp (by omega)
        exact ⟨by simp [h, this], rfl⟩

/-- **C21, consequence.** Whatever happens between the filter and the inter-procedural pass,
as long as the mark stays, an oversized function is not classified safe. -/
theorem C21_never_safe (co : CodeObj) (S S1 S' : Sums) (hnd : co.funcs.Nodup) (f : Func)
    (hf : f ∈ co.funcs) (hbig : Oversized co f)
    (hkeep : (runLocal co.funcs (largeFilter co) S f).assumeUnsafe = true →
      (S1 f).assumeUnsafe = true)
    (hrun : ipRun co.funcs S1 = some S') : (S' f).isSafe = false := by
  refine localReason_unsafe co.funcs S1 S' hrun f hf (.inr (.inl (hkeep ?_)))
  rw [runLocal_apply _ hnd _ _ _ hf]
  exact (C21_exact co f (S f)).1.mpr (.inr hbig)

/-- One function of 30001 bytes from address 16. -/
def bigCode : CodeObj where
  funcs := [0]
  addr := fun _ => 16
  entry := id
  blocks := fun _ => [0]
  exitBlocks := fun _ => []
  targets := fun _ => []
  start := fun _ => 16
  last := id
  funcsAt := fun _ => []
  linkage := fun _ => none
  returnBlocks := fun _ => [0]
  endAddr := fun _ => 30017

example : Oversized bigCode 0 := ⟨0, .inr (by decide), by decide⟩
example : ¬ Oversized { bigCode with endAddr := fun _ => 20016 } 0 := by
  rintro ⟨b, _, h⟩
  exact absurd h (by simp [bigCode])

/-! ## Unsafe blocks -/

/-- The assignment is dangerous: an unknown address, or a stack slot at or above the return
address. -/
def Dangerous (l : AbsLoc) : Prop := l = .unknown ∨ ∃ off, l = .stack off ∧ -8 ≤ off

/-- The instruction writes memory dangerously, other than by a call. -/
def DangerousInsn (i : StackInsn) : Prop :=
  i.frameSwitch = false ∧ i.writesMemory = true ∧ ∃ l ∈ i.outs, Dangerous l

/-- Only the fields concerned with writes and heights may differ. -/
structure SameButStack (s s' : FuncSummary) : Prop where
  assume : s'.assumeUnsafe = s.assumeUnsafe
  callees : s'.callees = s.callees
  plt : s'.pltCalls = s.pltCalls
  unknown : s'.hasUnknownCf = s.hasUnknownCf
  writes : s'.writes = s.writes
  child : s'.childWrites = s.childWrites
  exc : s'.funcExceptionSafe = s.funcExceptionSafe

theorem insertUnknown_ne (m : List (Blk × List Nat)) (b : Blk) (a : Nat) :
    insertUnknown m b a ≠ [] := by
  cases m with
  | nil => simp [insertUnknown]
  | cons p m => obtain ⟨b', as⟩ := p; unfold insertUnknown; split <;> simp

theorem insertUnknown_dom (m : List (Blk × List Nat)) (b : Blk) (a : Nat) (c : Blk) :
    c ∈ (insertUnknown m b a).map Prod.fst ↔ c = b ∨ c ∈ m.map Prod.fst := by
  induction m with
  | nil => simp [insertUnknown]
  | cons p m ih =>
    obtain ⟨b', as⟩ := p
    unfold insertUnknown
    split
    · rename_i h
      subst h
      simp
    · rw [List.map_cons, List.mem_cons, ih, List.map_cons, List.mem_cons]
      constructor
      · rintro (h | h | h) <;> simp [h]
      · rintro (h | h | h) <;> simp [h]

/-- Everything the assignments of a block `b` may do to a summary, where `D` tells whether
one of them is dangerous. -/
structure ShPost (b : Blk) (D : Prop) (s s' : FuncSummary) : Prop where
  same : SameButStack s s'
  heights : s'.blockEndSPHeight = s.blockEndSPHeight ∧ s'.blockEntrySPHeight = s.blockEntrySPHeight
  blocks : ∀ c, c ∈ s'.unsafeBlocks ↔ c ∈ s.unsafeBlocks ∨ (c = b ∧ D)
  clean : (s'.selfUnsafeWrites = false ∧ s'.unknownWrites = []) ↔
    (s.selfUnsafeWrites = false ∧ s.unknownWrites = []) ∧ ¬ D

theorem ShPost.refl (b : Blk) (s : FuncSummary) {D : Prop} (h : ¬ D) : ShPost b D s s :=
  ⟨⟨rfl, rfl, rfl, rfl, rfl, rfl, rfl⟩, ⟨rfl, rfl⟩, by simp [h], by simp [h]⟩

theorem SameButStack.trans {s s' s'' : FuncSummary} (h : SameButStack s s')
    (h' : SameButStack s' s'') : SameButStack s s'' :=
  ⟨h'.assume.trans h.assume, h'.callees.trans h.callees, h'.plt.trans h.plt,
    h'.unknown.trans h.unknown, h'.writes.trans h.writes, h'.child.trans h.child,
    h'.exc.trans h.exc⟩

theorem ShPost.trans {b : Blk} {D D' E : Prop} {s s' s'' : FuncSummary} (h : ShPost b D s s')
    (h' : ShPost b D' s' s'') (he : E ↔ D ∨ D') : ShPost b E s s'' := by
  refine ⟨h.same.trans h'.same, ⟨h'.heights.1.trans h.heights.1, h'.heights.2.trans h.heights.2⟩,
    fun c => ?_, ?_⟩
  · rw [h'.blocks, h.blocks, he]
    constructor
    · rintro ((h | ⟨h, h2⟩) | ⟨h, h2⟩)
      · exact .inl h
      · exact .inr ⟨h, .inl h2⟩
      · exact .inr ⟨h, .inr h2⟩
    · rintro (h | ⟨h, h2 | h2⟩)
      · exact .inl (.inl h)
      · exact .inl (.inr ⟨h, h2⟩)
      · exact .inr ⟨h, h2⟩
  · rw [h'.clean, h.clean, he]
    constructor
    · rintro ⟨⟨h1, h2⟩, h3⟩; exact ⟨h1, by rintro (h | h); exact h2 h; exact h3 h⟩
    · rintro ⟨h1, h2⟩; exact ⟨⟨h1, fun h => h2 (.inl h)⟩, fun h => h2 (.inr h)⟩

theorem shAssign_post (b : Blk) (a : Nat) (s : FuncSummary) (l : AbsLoc) :
    ShPost b (Dangerous l) s (shAssign b a s l) := by
  cases l with
  | stack off =>
    rw [shAssign]
    split
    · rename_i h
      have hd : Dangerous (.stack off) := .inr ⟨off, rfl, h⟩
      refine ⟨⟨rfl, rfl, rfl, rfl, rfl, rfl, rfl⟩, ⟨rfl, rfl⟩, fun c => ?_, ?_⟩
      · simp only [mem_setInsert, hd, and_true]; exact Or.comm
      · simp [hd]
    · rename_i h
      refine .refl b s ?_
      rintro (h1 | ⟨o, h1, h2⟩)
      · cases h1
      · cases h1; exact h h2
  | unknown =>
    have hd : Dangerous .unknown := .inl rfl
    refine ⟨⟨rfl, rfl, rfl, rfl, rfl, rfl, rfl⟩, ⟨rfl, rfl⟩, fun c => ?_, ?_⟩
    · simp only [shAssign, mem_setInsert, hd, and_true]; exact Or.comm
    · simp [hd, shAssign, insertUnknown_ne]
  | heap =>
    refine .refl b s ?_
    rintro (h1 | ⟨o, h1, h2⟩) <;> cases h1
  | register =>
    refine .refl b s ?_
    rintro (h1 | ⟨o, h1, h2⟩) <;> cases h1

theorem foldl_post {α : Type} (b : Blk) (step : FuncSummary → α → FuncSummary) (D : α → Prop)
    (hstep : ∀ s x, ShPost b (D x) s (step s x)) (l : List α) (s : FuncSummary) :
    ShPost b (∃ x ∈ l, D x) s (l.foldl step s) := by
  induction l generalizing s with
  | nil => exact .refl b s (by simp)
  | cons x l ih =>
    refine (hstep s x).trans (ih (step s x)) ?_
    simp

theorem shInsn_post (b : Blk) (s : FuncSummary) (i : StackInsn) :
    ShPost b (DangerousInsn i) s (shInsn b s i) := by
  unfold shInsn
  split
  · rename_i h
    exact .refl b s (fun hd => by rw [hd.1] at h; cases h)
  · rename_i h
    split
    · rename_i hw
      have := foldl_post b (shAssign b i.addr) Dangerous (shAssign_post b i.addr) i.outs s
      refine this.trans (.refl b _ (D := False) id) ?_
      simp [DangerousInsn, hw, h]
    · rename_i hw
      exact .refl b s (fun hd => hw hd.2.1)

theorem shHeights_same (co : CodeObj) (info : StackInfo) (b : Blk) (s : FuncSummary) :
    SameButStack s (shHeights co info b s) ∧
      (shHeights co info b s).unsafeBlocks = s.unsafeBlocks ∧
      (shHeights co info b s).selfUnsafeWrites = s.selfUnsafeWrites ∧
      (shHeights co info b s).unknownWrites = s.unknownWrites := by
  unfold shHeights
  split <;> split <;> exact ⟨⟨rfl, rfl, rfl, rfl, rfl, rfl, rfl⟩, rfl, rfl, rfl⟩

/-- Effect of the stack height pass on the write facts of a function. -/
theorem shBlocks_post (co : CodeObj) (info : StackInfo) (bs : List Blk) (s : FuncSummary) :
    SameButStack s (bs.foldl (shBlock co info) s) ∧
    (∀ c, c ∈ (bs.foldl (shBlock co info) s).unsafeBlocks ↔
      c ∈ s.unsafeBlocks ∨ (c ∈ bs ∧ ∃ i ∈ info.insns c, DangerousInsn i)) ∧
    (((bs.foldl (shBlock co info) s).selfUnsafeWrites = false ∧
      (bs.foldl (shBlock co info) s).unknownWrites = []) ↔
      (s.selfUnsafeWrites = false ∧ s.unknownWrites = []) ∧
        ∀ b ∈ bs, ∀ i ∈ info.insns b, ¬ DangerousInsn i) := by
  induction bs generalizing s with
  | nil => exact ⟨⟨rfl, rfl, rfl, rfl, rfl, rfl, rfl⟩, by simp, by simp⟩
  | cons b bs ih =>
    rw [List.foldl_cons]
    obtain ⟨h1, h2, h3⟩ := ih (shBlock co info s b)
    obtain ⟨g1, g2, g3, g4⟩ := shHeights_same co info b s
    have hp := foldl_post b (shInsn b) DangerousInsn (shInsn_post b) (info.insns b)
      (shHeights co info b s)
    refine ⟨(g1.trans hp.same).trans h1, fun c => ?_, ?_⟩
    · rw [h2]
      unfold shBlock
      rw [hp.blocks, g2]
      constructor
      · rintro ((h | ⟨rfl, h⟩) | ⟨h, h'⟩)
        · exact .inl h
        · exact .inr ⟨by simp, h⟩
        · exact .inr ⟨by simp [h], h'⟩
      · rintro (h | ⟨h, h'⟩)
        · exact .inl (.inl h)
        · rcases List.mem_cons.mp h with rfl | h
          · exact .inl (.inr ⟨rfl, h'⟩)
          · exact .inr ⟨h, h'⟩
    · rw [h3]
      unfold shBlock
      rw [hp.clean, g3, g4]
      constructor
      · rintro ⟨⟨h, hb⟩, hbs⟩
        refine ⟨h, fun c hc i hi hd => ?_⟩
        rcases List.mem_cons.mp hc with rfl | hc
        · exact hb ⟨i, hi, hd⟩
        · exact hbs c hc i hi hd
      · rintro ⟨h, hb⟩
        exact ⟨⟨h, fun ⟨i, hi, hd⟩ => hb b (by simp) i hi hd⟩,
          fun c hc => hb c (by simp [hc])⟩

/-- **C51, blocks.** In a function not assumed unsafe, the blocks added to the unsafe ones
are exactly those containing a dangerous write. -/
theorem C51_unsafe_blocks (co : CodeObj) (info : StackInfo) (f : Func) (s : FuncSummary)
    (ha : s.assumeUnsafe = false) (b : Blk) :
    b ∈ (stackHeight co info f s).unsafeBlocks ↔
      b ∈ s.unsafeBlocks ∨ (b ∈ co.blocks f ∧ ∃ i ∈ info.insns b, DangerousInsn i) := by
  unfold stackHeight
  rw [if_neg (by simp [ha])]
  exact (shBlocks_post co info (co.blocks f) s).2.1 b

/-- **C51, functions.** A function has neither an unsafe nor an unknown write after the pass
exactly when none of its instructions writes dangerously. -/
theorem C51_function (co : CodeObj) (info : StackInfo) (f : Func) (s : FuncSummary)
    (ha : s.assumeUnsafe = false) (h0 : s.selfUnsafeWrites = false) (h1 : s.unknownWrites = []) :
    ((stackHeight co info f s).selfUnsafeWrites = false ∧
      (stackHeight co info f s).unknownWrites = []) ↔
      ∀ b ∈ co.blocks f, ∀ i ∈ info.insns b, ¬ DangerousInsn i := by
  unfold stackHeight
  rw [if_neg (by simp [ha])]
  have := (shBlocks_post co info (co.blocks f) s).2.2
  rw [this]
  simp [h0, h1]

/-- A function classified safe has no dangerous write. -/
theorem C51_safe_no_dangerous (co : CodeObj) (info : StackInfo) (S S' : Sums)
    (hnd : co.funcs.Nodup) (f : Func) (hf : f ∈ co.funcs)
    (hs : (S f).selfUnsafeWrites = false ∧ (S f).unknownWrites = [])
    (hrun : ipRun co.funcs (runLocal co.funcs (stackHeight co info) S) = some S')
    (hsafe : (S' f).isSafe = true) :
    ∀ b ∈ co.blocks f, ∀ i ∈ info.insns b, ¬ DangerousInsn i := by
  have hno : ¬ LocalReason (runLocal co.funcs (stackHeight co info) S f) := fun hl => by
    rw [localReason_unsafe _ _ _ hrun f hf hl] at hsafe; cases hsafe
  rw [runLocal_apply _ hnd _ _ _ hf] at hno
  have ha : (S f).assumeUnsafe = false := by
    cases h : (S f).assumeUnsafe with
    | false => rfl
    | true =>
      refine absurd (.inr (.inl ?_)) hno
      rw [stackHeight, if_pos h]; exact h
  refine (C51_function co info f (S f) ha hs.1 hs.2).mp ⟨?_, ?_⟩
  · cases h : (stackHeight co info f (S f)).selfUnsafeWrites with
    | false => rfl
    | true => exact absurd (.inl h) hno
  · exact Classical.byContradiction fun h => hno (.inr (.inr (.inr (.inl h))))

/-! ## C22 -/

/-- The byte range `[off, off + w)` meets the return address slot `[-8, 0)`. -/
def HitsReturnAddress (off : Int) (w : Nat) : Prop := ∃ x : Int, off ≤ x ∧ x < off + w ∧ -8 ≤ x ∧ x < 0

/-- **C22 is false.** A 16 byte write at offset -16 is not dangerous for the pass and
overwrites the return address. -/
theorem C22_refuted : ∃ (off : Int) (w : Nat), ¬ Dangerous (.stack off) ∧ HitsReturnAddress off w :=
  ⟨-16, 16, by rintro (h | ⟨o, h, h'⟩) <;> cases h; exact absurd h' (by decide),
    -8, by decide, by decide, by decide, by decide⟩

/-- Also for the widths of ordinary instructions when the slot is not aligned. -/
theorem C22_refuted_unaligned : ∃ off : Int, ¬ Dangerous (.stack off) ∧ HitsReturnAddress off 8 :=
  ⟨-12, by rintro (h | ⟨o, h, h'⟩) <;> cases h; exact absurd h' (by decide),
    -8, by decide, by decide, by decide, by decide⟩

/-- **C22, what holds.** A write not considered dangerous which is aligned to its width and
at most eight bytes wide, or which ends below the slot, does not touch the return address.
Missing: wider and unaligned writes, for which it is false. -/
theorem C22_stack_write_partial (off : Int) (w : Nat) (h : ¬ Dangerous (.stack off))
    (hw : ((w = 1 ∨ w = 2 ∨ w = 4 ∨ w = 8) ∧ off % w = 0) ∨ off + w ≤ -8) :
    ¬ HitsReturnAddress off w := by
  have hoff : off < -8 := by
    refine Int.lt_of_not_ge fun hge => h (.inr ⟨off, rfl, hge⟩)
  rintro ⟨x, h1, h2, h3, h4⟩
  rcases hw with ⟨rfl | rfl | rfl | rfl, ha⟩ | hw <;> omega

example : ¬ Dangerous (.stack (-24)) ∧ ¬ HitsReturnAddress (-24) 8 := by
  have : ¬ Dangerous (.stack (-24)) := by
    rintro (h | ⟨o, h, h'⟩) <;> cases h; exact absurd h' (by decide)
  exact ⟨this, C22_stack_write_partial _ _ this (.inl ⟨by decide, by decide⟩)⟩

/-! ## C30 -/

/-- The block's first call edge, in the order of its edge list. -/
def FirstCall (es : List Edge) (e : Edge) : Prop :=
  ∃ pre post, es = pre ++ e :: post ∧ e.type = .call ∧ ∀ x ∈ pre, x.type ≠ .call

/-- A function that may be called without protection: not a stub of an untrusted library
function, and not classified as writing. -/
def SafeTarget (co : CodeObj) (S : Sums) (a : Nat) : Prop :=
  ∃ g ∈ co.funcs, co.addr g = a ∧ (S g).writes = false ∧
    ∀ name, co.linkage a = some name → TrustedName name

theorem mem_safeFuncs (co : CodeObj) (S : Sums) (a : Nat) :
    a ∈ safeFuncs co S ↔ SafeTarget co S a := by
  unfold safeFuncs SafeTarget
  simp only [List.mem_map, List.mem_filter, Bool.and_eq_true, Bool.not_eq_true']
  constructor
  · rintro ⟨g, ⟨hg, hl, hw⟩, rfl⟩
    refine ⟨g, hg, rfl, hw, fun name hn => ?_⟩
    rw [hn] at hl
    exact (C49_trusted_iff name).mp hl
  · rintro ⟨g, hg, rfl, hw, hl⟩
    refine ⟨g, ⟨hg, ?_, hw⟩, rfl⟩
    cases hn : co.linkage (co.addr g) with
    | none => rfl
    | some name => exact (C49_trusted_iff name).mpr (hl name hn)

theorem ucBlock_iff (co : CodeObj) (S : Sums) (es : List Edge) :
    ucBlock co (safeFuncs co S) es = true ↔
      ∃ e, FirstCall es e ∧ (e.sink = true ∨ ¬ SafeTarget co S (co.start e.trg)) := by
  induction es with
  | nil =>
    simp only [ucBlock, Bool.false_eq_true, false_iff]
    rintro ⟨e, ⟨pre, post, h, _⟩, _⟩
    cases pre <;> cases h
  | cons e es ih =>
    by_cases hc : e.type = .call
    · have huniq : ∀ e', FirstCall (e :: es) e' → e' = e := by
        rintro e' ⟨pre, post, h, h1, h2⟩
        cases pre with
        | nil => simp only [List.nil_append, List.cons.injEq] at h; exact h.1.symm
        | cons x pre =>
          simp only [List.cons_append, List.cons.injEq] at h
          exact absurd (h.1 ▸ hc) (h2 x (by simp))
      have hfirst : FirstCall (e :: es) e := ⟨[], es, rfl, hc, by simp⟩
      have hval : ucBlock co (safeFuncs co S) (e :: es) = true ↔
          (e.sink = true ∨ ¬ SafeTarget co S (co.start e.trg)) := by
        rw [← mem_safeFuncs]
        unfold ucBlock
        cases e.sink <;> simp [hc]
      rw [hval]
      constructor
      · exact fun h => ⟨e, hfirst, h⟩
      · rintro ⟨e', h1, h2⟩
        rw [huniq e' h1] at h2
        exact h2
    · have hval : ucBlock co (safeFuncs co S) (e :: es) = ucBlock co (safeFuncs co S) es := by
        rw [ucBlock]
        simp [hc]
      rw [hval, ih]
      constructor
      · rintro ⟨e', ⟨pre, post, h, h1, h2⟩, h3⟩
        refine ⟨e', ⟨e :: pre, post, by rw [h]; rfl, h1, fun x hx => ?_⟩, h3⟩
        rcases List.mem_cons.mp hx with rfl | hx
        · exact hc
        · exact h2 x hx
      · rintro ⟨e', ⟨pre, post, h, h1, h2⟩, h3⟩
        cases pre with
        | nil =>
          simp only [List.nil_append, List.cons.injEq] at h
          exact absurd (h.1 ▸ h1) hc
        | cons x pre =>
          simp only [List.cons_append, List.cons.injEq] at h
          exact ⟨e', ⟨pre, post, h.2, h1, fun y hy => h2 y (by simp [hy])⟩, h3⟩

theorem ucFunc_blocks (co : CodeObj) (safe : List Nat) (bs : List Blk) (s : FuncSummary) (b : Blk) :
    b ∈ (bs.foldl (fun s b =>
        if ucBlock co safe (co.targets b) then { s with unsafeBlocks := setInsert s.unsafeBlocks b }
        else s) s).unsafeBlocks ↔
      b ∈ s.unsafeBlocks ∨ (b ∈ bs ∧ ucBlock co safe (co.targets b) = true) := by
  induction bs generalizing s with
  | nil => simp
  | cons c bs ih =>
    rw [List.foldl_cons, ih]
    split
    · rename_i h
      simp only [mem_setInsert, List.mem_cons]
      constructor
      · rintro ((rfl | h1) | ⟨h1, h2⟩)
        · exact .inr ⟨.inl rfl, h⟩
        · exact .inl h1
        · exact .inr ⟨.inr h1, h2⟩
      · rintro (h1 | ⟨rfl | h1, h2⟩)
        · exact .inl (.inr h1)
        · exact .inl (.inl rfl)
        · exact .inr ⟨h1, h2⟩
    · rename_i h
      simp only [List.mem_cons]
      constructor
      · rintro (h1 | ⟨h1, h2⟩)
        · exact .inl h1
        · exact .inr ⟨.inr h1, h2⟩
      · rintro (h1 | ⟨rfl | h1, h2⟩)
        · exact .inl h1
        · exact absurd h2 h
        · exact .inr ⟨h1, h2⟩

/-- **C30.** After the pass a block of `f` is marked unsafe exactly when it was before, or
its first call edge has an unknown target or leads to a function not safe to call. -/
theorem C30_unsafe_call_blocks (co : CodeObj) (S : Sums) (hnd : co.funcs.Nodup) (f : Func)
    (hf : f ∈ co.funcs) (b : Blk) :
    b ∈ (ucRun co S f).unsafeBlocks ↔ b ∈ (S f).unsafeBlocks ∨
      (b ∈ co.blocks f ∧ ∃ e, FirstCall (co.targets b) e ∧
        (e.sink = true ∨ ¬ SafeTarget co S (co.start e.trg))) := by
  unfold ucRun
  rw [runLocal_apply _ hnd _ _ _ hf]
  unfold ucFunc
  rw [ucFunc_blocks, ucBlock_iff]

/-- If every block has at most one call edge, as Dyninst's blocks do, an unmarked block calls
only safe functions. -/
theorem C30_unmarked_calls_safe (co : CodeObj) (S : Sums) (hnd : co.funcs.Nodup) (f : Func)
    (hf : f ∈ co.funcs) (b : Blk) (hb : b ∈ co.blocks f) (hu : b ∉ (ucRun co S f).unsafeBlocks)
    (e : Edge) (he : e ∈ co.targets b) (hc : e.type = .call)
    (hone : ∀ e' ∈ co.targets b, e'.type = .call → e' = e) :
    e.sink = false ∧ SafeTarget co S (co.start e.trg) := by
  rw [C30_unsafe_call_blocks co S hnd f hf b] at hu
  obtain ⟨pre, post, h⟩ := List.append_of_mem he
  have hex : ∃ pre post, co.targets b = pre ++ e :: post ∧ ∀ x ∈ pre, x.type ≠ .call := by
    clear h pre post hu
    generalize co.targets b = es at he hone
    induction es with
    | nil => cases he
    | cons x es ih =>
      by_cases hx : x.type = .call
      · have := hone x (by simp) hx
        subst this
        exact ⟨[], es, rfl, by simp⟩
      · have he' : e ∈ es := (List.mem_cons.mp he).resolve_left (fun h => hx (h ▸ hc))
        obtain ⟨pre, post, h1, h2⟩ := ih he' (fun e' h => hone e' (by simp [h]))
        exact ⟨x :: pre, post, by rw [h1]; rfl, fun y hy => by
          rcases List.mem_cons.mp hy with rfl | hy
          · exact hx
          · exact h2 y hy⟩
  obtain ⟨pre, post, h1, h2⟩ := hex
  have hno : ¬ (e.sink = true ∨ ¬ SafeTarget co S (co.start e.trg)) := fun hbad =>
    hu (.inr ⟨hb, e, ⟨pre, post, h1, hc, h2⟩, hbad⟩)
  refine ⟨?_, ?_⟩
  · cases hs : e.sink with
    | false => rfl
    | true => exact absurd (.inl hs) hno
  · exact Classical.byContradiction fun h => hno (.inr h)

/-- Block 0 calls function 1, which writes; block 1 calls function 2, which does not. -/
def callCode : CodeObj where
  funcs := [0, 1, 2]
  addr := fun f => 10 * f
  entry := id
  blocks := fun f => if f = 0 then [0, 1] else []
  exitBlocks := fun _ => []
  targets := fun b =>
    if b = 0 then [{ id := 0, src := 0, trg := 10, type := .call, interproc := true }]
    else if b = 1 then [{ id := 1, src := 1, trg := 2, type := .callFt },
      { id := 2, src := 1, trg := 20, type := .call, interproc := true }]
    else []
  start := id
  last := id
  funcsAt := fun _ => []
  linkage := fun _ => none

example : (ucRun callCode (fun f => if f = 1 then { writes := true } else {}) 0).unsafeBlocks = [0] := by
  decide

end Verif
