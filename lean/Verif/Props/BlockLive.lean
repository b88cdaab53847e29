import Verif.BlockSpec
import Verif.RegNames
import Verif.Props.Check
import Verif.Props.Push

/-!
# C25 - C28: dead registers and moved snippets
-/

namespace Verif

/-! ## Names -/

/-- Normalisation does nothing to the names of the base registers, which is why the model
works with registers instead of names. -/
theorem normalize_base (r : Reg) : normalize r.name.toList = some r.name.toList := by
  cases r <;> decide

/-- `sortedRegs` lists every general register but `rsp`, in the order of the names. -/
theorem sortedRegs_complete (r : Reg) : r ∈ sortedRegs ↔ r ≠ .rsp := by cases r <;> decide

theorem sortedRegs_nodup : sortedRegs.Nodup := by decide

theorem sortedRegs_sorted : (sortedRegs.map fun r => r.name.toList).Pairwise (· < ·) := by decide

theorem name_inj (r r' : Reg) (h : r.name = r'.name) : r = r' := by
  cases r <;> cases r' <;> first | rfl | exact absurd h (by decide)

/-! ## C25 -/

theorem mem_deadRegs (i : BInsn) (rest : List BInsn) (r : Reg) :
    r ∈ deadRegs (i :: rest) ↔
      r ≠ .rsp ∧ ((RegRef.gpr r 4 ∈ i.writes ∨ RegRef.gpr r 8 ∈ i.writes) ∨ r ∈ deadRegs rest) ∧
        ∀ n, RegRef.gpr r n ∉ i.reads := by
  rw [deadRegs, List.mem_filter, sortedRegs_complete]
  have huse : i.uses r = false ↔ ∀ n, RegRef.gpr r n ∉ i.reads := by
    unfold BInsn.uses
    rw [List.any_eq_false]
    constructor
    · intro h n hm
      exact h _ hm (by simp)
    · intro h x hx
      cases x with
      | gpr r' n =>
        simp only [beq_iff_eq]
        intro e
        subst e
        exact h n hx
      | flag => simp
      | other => simp
  simp only [Bool.and_eq_true, Bool.or_eq_true, Bool.not_eq_true', List.contains_iff_mem, huse,
    BInsn.kills, bne_iff_ne]
  constructor
  · rintro ⟨h1, h2 | h2, h3⟩
    · exact ⟨h1, .inl h2.2, h3⟩
    · exact ⟨h1, .inr h2, h3⟩
  · rintro ⟨h1, h2 | h2, h3⟩
    · exact ⟨h1, .inl ⟨h1, h2⟩, h3⟩
    · exact ⟨h1, .inr h2, h3⟩

/-- Running from `s`, no instruction depends on the bytes in `A`. -/
def NoTouch (A : W → Prop) : List (BInsn × Sem) → State → Prop
  | [], _ => True
  | (_, m) :: rest, s => (∀ a, m.touch s a → ¬ A a) ∧ NoTouch A rest (m.ex s)

/-- Differences in dead registers, in flags that are not read and in memory that is not used
do not spread; those in dead registers disappear. -/
theorem near_run (l : List (BInsn × Sem)) (hl : ∀ p ∈ l, Lawful p.1 p.2) (F : Prop)
    (A : W → Prop) (hF : F → ∀ p ∈ l, RegRef.flag ∉ p.1.reads) :
    ∀ (X : Reg → Prop) (s t : State), (∀ r, X r → r ∈ deadRegs (l.map Prod.fst)) →
      Near X F A s t → NoTouch A l s → Near (fun _ => False) F A (runSem l s) (runSem l t) := by
  induction l with
  | nil =>
    intro X s t hX h _
    refine ⟨fun r _ => h.regs r (fun hx => ?_), h.flags, h.gs, h.mem⟩
    have := hX r hx
    simp [deadRegs] at this
  | cons p l ih =>
    intro X s t hX h hn
    obtain ⟨i, m⟩ := p
    have hlaw : Lawful i m := hl (i, m) (by simp)
    have hX' : ∀ r, X r → r ∈ deadRegs (i :: l.map Prod.fst) := hX
    refine ih (fun q hq => hl q (by simp [hq])) (fun hf q hq => hF hf q (by simp [hq])) _ (m.ex s)
      (m.ex t) ?_ (hlaw.dep X F A s t h (fun r hr => ((mem_deadRegs _ _ _).mp (hX' r hr)).2.2)
        (fun hf => hF hf (i, m) (by simp)) hn.1) hn.2
    rintro r ⟨hr, h4, h8⟩
    rcases ((mem_deadRegs _ _ _).mp (hX' r hr)).2.1 with (h | h) | h
    · exact absurd h h4
    · exact absurd h h8
    · exact h

/-- **C25.** Registers reported dead before an instruction can be given any value there: the
state after the rest of the block is the same. -/
theorem C25_dead_registers (l : List (BInsn × Sem)) (hl : ∀ p ∈ l, Lawful p.1 p.2) (s t : State)
    (hregs : ∀ r, r ∉ deadRegs (l.map Prod.fst) → t.regs r = s.regs r)
    (hflags : t.flags = s.flags) (hgs : t.gs = s.gs) (hmem : t.mem = s.mem) :
    runSem l t = runSem l s := by
  have hno : ∀ (l : List (BInsn × Sem)) (s : State), NoTouch (fun _ => False) l s := by
    intro l
    induction l with
    | nil => intro s; exact trivial
    | cons p l ih => intro s; exact ⟨fun _ _ h => h, ih _⟩
  have h := near_run l hl False (fun _ => False) (fun h => h.elim) _ s t (fun _ h => h)
    ⟨hregs, fun _ => hflags, hgs, fun a _ => by rw [hmem]⟩ (hno l s)
  have h1 : (runSem l t).regs = (runSem l s).regs := funext fun r => h.regs r id
  have h2 := h.flags id
  have h3 := h.gs
  have h4 : (runSem l t).mem = (runSem l s).mem := funext fun a => h.mem a id
  revert h1 h2 h3 h4
  generalize runSem l t = a
  generalize runSem l s = b
  intro h1 h2 h3 h4
  cases a; cases b
  simp only at h1 h2 h3 h4
  rw [h1, h2, h3, h4]

/-! ### Instructions meeting `Lawful` -/

/-- `lea r, [b + d]` -/
def leaInsn (addr : Nat) (r b : Reg) : BInsn :=
  { addr, reads := [.gpr b 8], writes := [.gpr r 8] }

def leaSem (r b : Reg) (d : Int) : Sem where
  ex s := s.set r (s.ea b d)
  touch _ _ := False

theorem lea_lawful (addr : Nat) (r b : Reg) (d : Int) :
    Lawful (leaInsn addr r b) (leaSem r b d) where
  keep s x hx := by
    have : x ≠ r := by
      intro e; subst e; exact hx 8 (by simp [leaInsn])
    simp [leaSem, State.set, this]
  mem _ _ := rfl
  dep X F A s t h hX _ _ := by
    refine ⟨fun x hx => ?_, h.flags, h.gs, h.mem⟩
    have hb : ¬ X b := fun hb => hX b hb 8 (by simp [leaInsn])
    by_cases e : x = r
    · subst e
      simp [leaSem, State.set, State.ea, h.regs b hb]
    · simp only [leaSem, State.set, if_neg e]
      exact h.regs x (fun hxx => hx ⟨hxx, by simp [leaInsn], by simp [leaInsn, e]⟩)

/-- `mov r, [b + d]` -/
def loadInsn (addr : Nat) (r b : Reg) : BInsn :=
  { addr, reads := [.gpr b 8], writes := [.gpr r 8] }

def loadSem (r b : Reg) (d : Int) : Sem where
  ex s := s.set r (s.mem.read64 (s.ea b d))
  touch s a := InRange a (s.ea b d) 8

theorem byte_inRange (a : W) (k n : Nat) (hk : k < n) (hn : n ≤ 2 ^ 64) :
    InRange (a + BitVec.ofNat 64 k) a n := by
  unfold InRange
  have : a + BitVec.ofNat 64 k - a = BitVec.ofNat 64 k := by
    rw [BitVec.add_comm, BitVec.add_sub_cancel]
  rw [this, BitVec.toNat_ofNat, Nat.mod_eq_of_lt (by omega)]
  exact hk

theorem read64_congr (m m' : Mem) (a : W) (h : ∀ x, InRange x a 8 → m x = m' x) :
    m.read64 a = m'.read64 a := by
  have e : ∀ k, k < 8 → m (a + BitVec.ofNat 64 k) = m' (a + BitVec.ofNat 64 k) := fun k hk =>
    h _ (byte_inRange a k 8 hk (by omega))
  have e0 : m a = m' a := by have := e 0 (by omega); simpa using this
  unfold Mem.read64
  rw [show m (a + 7) = m' (a + 7) from e 7 (by omega), show m (a + 6) = m' (a + 6) from e 6 (by omega),
    show m (a + 5) = m' (a + 5) from e 5 (by omega), show m (a + 4) = m' (a + 4) from e 4 (by omega),
    show m (a + 3) = m' (a + 3) from e 3 (by omega), show m (a + 2) = m' (a + 2) from e 2 (by omega),
    show m (a + 1) = m' (a + 1) from e 1 (by omega), e0]

theorem load_lawful (addr : Nat) (r b : Reg) (d : Int) :
    Lawful (loadInsn addr r b) (loadSem r b d) where
  keep s x hx := by
    have : x ≠ r := by
      intro e; subst e; exact hx 8 (by simp [loadInsn])
    simp [loadSem, State.set, this]
  mem _ _ := rfl
  dep X F A s t h hX _ ht := by
    refine ⟨fun x hx => ?_, h.flags, h.gs, h.mem⟩
    have hb : ¬ X b := fun hb => hX b hb 8 (by simp [loadInsn])
    have hea : t.ea b d = s.ea b d := by unfold State.ea; rw [h.regs b hb]
    by_cases e : x = r
    · subst e
      simp only [loadSem, State.set, if_true]
      rw [hea]
      exact read64_congr _ _ _ fun a ha => h.mem a (ht a ha)
    · simp only [loadSem, State.set, if_neg e]
      exact h.regs x (fun hxx => hx ⟨hxx, by simp [loadInsn], by simp [loadInsn, e]⟩)

/-- `ret`, as far as the registers and memory are concerned. -/
def retInsn (addr : Nat) : BInsn :=
  { addr, op := .ret, reads := [.gpr .rsp 8], writes := [.gpr .rsp 8] }

def retSem : Sem where
  ex s := s.set .rsp (s.regs .rsp + 8)
  touch _ _ := False

theorem ret_lawful (addr : Nat) : Lawful (retInsn addr) retSem where
  keep s x hx := by
    have : x ≠ .rsp := by
      intro e; subst e; exact hx 8 (by simp [retInsn])
    simp [retSem, State.set, this]
  mem _ _ := rfl
  dep X F A s t h hX _ _ := by
    refine ⟨fun x hx => ?_, h.flags, h.gs, h.mem⟩
    have hb : ¬ X .rsp := fun hb => hX .rsp hb 8 (by simp [retInsn])
    by_cases e : x = .rsp
    · subst e
      simp [retSem, State.set, h.regs _ hb]
    · simp only [retSem, State.set, if_neg e]
      exact h.regs x (fun hxx => hx ⟨hxx, by simp [retInsn], by simp [retInsn, e]⟩)

/-- `push r` of `n` bytes -/
def pushInsn (addr : Nat) (r : Reg) (n : Nat) : BInsn :=
  { addr, op := .push, reads := [.gpr r n, .gpr .rsp 8], writes := [.gpr .rsp 8], writesMemory := true }

/-- Store of the low `n` bytes of `v`. -/
def Mem.writeN (m : Mem) (a v : W) (n : Nat) : Mem := fun x =>
  if (x - a).toNat < n then v.extractLsb' (8 * (x - a).toNat) 8 else m x

def pushSem (r : Reg) (n : Nat) : Sem where
  ex s := { s.set .rsp (s.regs .rsp - BitVec.ofNat 64 n) with
    mem := s.mem.writeN (s.regs .rsp - BitVec.ofNat 64 n) (s.regs r) n }
  touch _ _ := False

theorem push_lawful (addr : Nat) (r : Reg) (n : Nat) :
    Lawful (pushInsn addr r n) (pushSem r n) where
  keep s x hx := by
    have : x ≠ .rsp := by
      intro e; subst e; exact hx 8 (by simp [pushInsn])
    simp [pushSem, State.set, this]
  mem h := by cases h
  dep X F A s t h hX _ _ := by
    have hb : ¬ X .rsp := fun hb => hX .rsp hb 8 (by simp [pushInsn])
    have hr : ¬ X r := fun hr => hX r hr n (by simp [pushInsn])
    refine ⟨fun x hx => ?_, h.flags, h.gs, fun a ha => ?_⟩
    · by_cases e : x = .rsp
      · subst e
        simp [pushSem, State.set, h.regs _ hb]
      · simp only [pushSem, State.set, if_neg e]
        exact h.regs x (fun hxx => hx ⟨hxx, by simp [pushInsn], by simp [pushInsn, e]⟩)
    · simp only [pushSem, Mem.writeN, h.regs _ hb, h.regs _ hr]
      split
      · rfl
      · exact h.mem a ha

theorem push_push8 (r : Reg) : Push8 (pushSem r 8) := fun s =>
  ⟨by simp [pushSem, State.set], fun a ha => by
    simp only [pushSem, Mem.writeN]
    rw [if_neg]
    exact ha⟩

/-- `pop r` -/
def popInsn (addr : Nat) (r : Reg) : BInsn :=
  { addr, op := .pop, reads := [.gpr .rsp 8], writes := [.gpr r 8, .gpr .rsp 8] }

def popSem (r : Reg) : Sem where
  ex s := (s.set .rsp (s.regs .rsp + 8)).set r (s.mem.read64 (s.regs .rsp))
  touch s a := InRange a (s.regs .rsp) 8

theorem pop_lawful (addr : Nat) (r : Reg) : Lawful (popInsn addr r) (popSem r) where
  keep s x hx := by
    have h1 : x ≠ .rsp := by intro e; subst e; exact hx 8 (by simp [popInsn])
    have h2 : x ≠ r := by intro e; subst e; exact hx 8 (by simp [popInsn])
    simp [popSem, State.set, h1, h2]
  mem _ _ := rfl
  dep X F A s t h hX _ ht := by
    have hb : ¬ X .rsp := fun hb => hX .rsp hb 8 (by simp [popInsn])
    refine ⟨fun x hx => ?_, h.flags, h.gs, h.mem⟩
    by_cases e : x = r
    · subst e
      simp only [popSem, State.set, if_true]
      rw [h.regs _ hb]
      exact read64_congr _ _ _ fun a ha => h.mem a (ht a ha)
    · by_cases e' : x = .rsp
      · subst e'
        simp [popSem, State.set, e, h.regs _ hb]
      · simp only [popSem, State.set, if_neg e, if_neg e']
        exact h.regs x (fun hxx => hx ⟨hxx, by simp [popInsn], by simp [popInsn, e, e']⟩)

theorem pop_pop8 (r : Reg) (h : r ≠ .rsp) : Pop8 (popSem r) := fun s => by
  simp [popSem, State.set, Ne.symm h]

/-- In `push rbx; lea rcx, [rax]; pop rax; ret`, `rcx` is dead first, then `rax`. -/
example : deadRegs [pushInsn 16 .rbx 8, leaInsn 17 .rcx .rax, popInsn 20 .rax, retInsn 21] = [.rcx] ∧
    deadRegs [popInsn 20 .rax, retInsn 21] = [.rax] := by decide

/-! ## C26 -/

/-- Number of instructions with a given operation. -/
def countOp (o : Op) (l : List BInsn) : Nat := (l.filter fun i => i.op = o).length

/-- Allowed before a moved push. -/
def QuietBefore (i : BInsn) : Prop := i.op = .push ∨ (i.writesMemory = false ∧ i.movesSP = false)

/-- The scan's result designates a position reached through quiet instructions. -/
structure EntryOk (insns : List BInsn) (sc : Scan) : Prop where
  pos : ∃ pre i rest, insns = pre ++ i :: rest ∧ i.addr = sc.newAddr ∧
    sc.dead = deadRegs (i :: rest) ∧ sc.raOffset = 8 * countOp .push pre ∧
    ∀ p ∈ pre, QuietBefore p
  count : sc.saveCount = min 2 sc.dead.length

theorem improve_count (sc : Scan) (a h : Nat) (d : List Reg) :
    sc.improve a h d = sc ∨ (d ≠ [] ∧ sc.improve a h d =
      { newAddr := a, saveCount := min 2 d.length, raOffset := h, dead := d }) := by
  unfold Scan.improve
  split
  · rename_i hlt
    right
    refine ⟨by intro e; subst e; exact absurd hlt (by simp), ?_⟩
    split <;> (congr 1; omega)
  · exact .inl rfl

theorem entryScan_ok (insns : List BInsn) : ∀ (l done : List BInsn) (h : Nat) (sc : Scan),
    insns = done ++ l → h = 8 * countOp .push done → (∀ p ∈ done, QuietBefore p) →
    (sc = {} ∨ EntryOk insns sc) → (entryScan l h sc = {} ∨ EntryOk insns (entryScan l h sc)) := by
  intro l
  induction l with
  | nil => intro done h sc _ _ _ hsc; exact hsc
  | cons i rest ih =>
    intro done h sc he hh hq hsc
    have hsc' : sc.improve i.addr h (deadRegs (i :: rest)) = {} ∨
        EntryOk insns (sc.improve i.addr h (deadRegs (i :: rest))) := by
      rcases improve_count sc i.addr h (deadRegs (i :: rest)) with e | ⟨hne, e⟩
      · rw [e]; exact hsc
      · rw [e]
        exact .inr ⟨⟨done, i, rest, he, rfl, rfl, hh, hq⟩, rfl⟩
    rw [entryScan]
    split
    · exact hsc'
    split
    · rename_i hp
      refine ih (done ++ [i]) (h + 8) _ (by rw [he]; simp) ?_ ?_ hsc'
      · rw [hh]; simp [countOp, List.filter_append, hp]; omega
      · intro p hpm
        rcases List.mem_append.mp hpm with hpm | hpm
        · exact hq p hpm
        · have : p = i := by simpa using hpm
          subst this; exact .inl hp
    split
    · exact hsc'
    split
    · exact hsc'
    · rename_i hp hw hm
      refine ih (done ++ [i]) h _ (by rw [he]; simp) ?_ ?_ hsc'
      · rw [hh]; simp [countOp, List.filter_append, hp]
      · intro p hpm
        rcases List.mem_append.mp hpm with hpm | hpm
        · exact hq p hpm
        · have : p = i := by simpa using hpm
          subst this; exact .inr ⟨by simpa using hw, by simpa using hm⟩

/-- The registers handed to the emitter. -/
structure Scratch2 (dead : List Reg) (mid : MoveInst) : Prop where
  count : mid.saveCount = 1 ∨ mid.saveCount = 2
  reg1 : ∃ r ∈ dead, mid.reg1 = r.name
  reg2 : mid.saveCount = 2 → ∃ r ∈ dead, mid.reg2 = r.name ∧ mid.reg1 ≠ mid.reg2

theorem deadRegs_nodup (l : List BInsn) : (deadRegs l).Nodup := by
  cases l with
  | nil => exact List.nodup_nil
  | cons i rest => exact sortedRegs_nodup.filter _

theorem scan_data (sc : Scan) (hc : sc.saveCount = min 2 sc.dead.length) (hp : 0 < sc.saveCount)
    (hnd : sc.dead.Nodup) : Scratch2 sc.dead sc.data := by
  obtain ⟨a, c, o, d⟩ := sc
  simp only at hc hp hnd
  match d, hc, hnd with
  | [], hc, _ => simp at hc; omega
  | [r], hc, _ =>
    simp at hc
    subst hc
    exact ⟨.inl rfl, ⟨r, by simp, rfl⟩, fun h => absurd h (by simp [Scan.data])⟩
  | r :: r' :: l, hc, hnd =>
    have : c = 2 := by simp at hc; omega
    subst this
    refine ⟨.inr rfl, ⟨r, by simp, rfl⟩, fun _ => ⟨r', by simp, rfl, fun h => ?_⟩⟩
    have := name_inj r r' h
    subst this
    exact absurd hnd (by simp)

/-- **C26, position.** The place chosen for a moved push is reached from the start of the
block through pushes and instructions that neither write memory nor set `rsp`; the recorded
offset is eight times the number of pushes passed; and the scratch registers are dead
there. -/
theorem C26_entry_position (insns : List BInsn) (mid : MoveInst) (h : entryData insns = some mid) :
    ∃ pre i rest, insns = pre ++ i :: rest ∧ i.addr = mid.newAddr ∧
      mid.raOffset = 8 * countOp .push pre ∧ (∀ p ∈ pre, QuietBefore p) ∧
      Scratch2 (deadRegs (i :: rest)) mid := by
  unfold entryData at h
  dsimp only at h
  split at h
  · rename_i hc
    cases h
    rcases entryScan_ok insns insns [] 0 {} rfl rfl (by simp) (.inl rfl) with e | ⟨⟨pre, i, rest, h1,
      h2, h3, h4, h5⟩, h6⟩
    · rw [e] at hc; exact absurd hc.1 (by decide)
    · refine ⟨pre, i, rest, h1, h2, ?_, h5, ?_⟩
      · show ((entryScan insns 0 {}).raOffset : Int) = _
        rw [h4]; simp
      · rw [← h3]
        exact scan_data _ h6 hc.1 (by rw [h3]; exact deadRegs_nodup _)
  · cases h

/-- The instructions before a moved push behave as their operation suggests: pushes are eight
bytes wide and nothing sets a part of `rsp` only. -/
def PlainBefore (p : BInsn × Sem) : Prop :=
  Lawful p.1 p.2 ∧ (p.1.op = .push → Push8 p.2) ∧
    (p.1.op ≠ .push → p.1.movesSP = false → ∀ n, RegRef.gpr .rsp n ∉ p.1.writes)

theorem ofNat_step (s : W) (k : Nat) :
    s - 8#64 - BitVec.ofNat 64 (8 * k) = s - BitVec.ofNat 64 (8 * (k + 1)) := by
  have : BitVec.ofNat 64 (8 * (k + 1)) = BitVec.ofNat 64 (8 * k) + 8#64 := by
    rw [Nat.mul_add, BitVec.ofNat_add]
  rw [this]
  bv_omega

theorem push_area (a s : W) (k : Nat) (hk : 8 * (k + 1) < 2 ^ 64)
    (h : ¬ InRange a (s - BitVec.ofNat 64 (8 * (k + 1))) (8 * (k + 1))) :
    ¬ InRange a (s - 8#64) 8 ∧ ¬ InRange a (s - 8#64 - BitVec.ofNat 64 (8 * k)) (8 * k) := by
  unfold InRange at *
  rw [ofNat_step]
  generalize hb : BitVec.ofNat 64 (8 * (k + 1)) = b at *
  have hbn : b.toNat = 8 * (k + 1) := by
    rw [← hb, BitVec.toNat_ofNat, Nat.mod_eq_of_lt hk]
  constructor
  · bv_omega
  · omega

/-- Running the part before a moved push: `rsp` goes down by the recorded offset and only the
bytes pushed change. -/
theorem run_before (l : List (BInsn × Sem)) (hp : ∀ p ∈ l, PlainBefore p)
    (hq : ∀ p ∈ l, QuietBefore p.1) : ∀ s : State, 8 * countOp .push (l.map Prod.fst) < 2 ^ 64 →
    (runSem l s).regs .rsp = s.regs .rsp - BitVec.ofNat 64 (8 * countOp .push (l.map Prod.fst)) ∧
    ∀ a, ¬ InRange a (s.regs .rsp - BitVec.ofNat 64 (8 * countOp .push (l.map Prod.fst)))
      (8 * countOp .push (l.map Prod.fst)) → (runSem l s).mem a = s.mem a := by
  induction l with
  | nil => intro s _; simp [runSem, countOp]
  | cons p l ih =>
    intro s hlt
    obtain ⟨i, m⟩ := p
    obtain ⟨hlaw, hpush, hsp⟩ := hp (i, m) (by simp)
    have ih' := ih (fun q hq' => hp q (by simp [hq'])) (fun q hq' => hq q (by simp [hq']))
    simp only at hlaw hpush hsp
    by_cases ho : i.op = .push
    · have hc : countOp .push (((i, m) :: l).map Prod.fst) = countOp .push (l.map Prod.fst) + 1 := by
        simp [countOp, ho]
      rw [hc] at hlt ⊢
      obtain ⟨g1, g2⟩ := ih' (m.ex s) (by omega)
      obtain ⟨p1, p2⟩ := hpush ho s
      rw [p1] at g1 g2
      refine ⟨?_, fun a ha => ?_⟩
      · show (runSem l (m.ex s)).regs .rsp = _
        rw [g1]; exact ofNat_step _ _
      · obtain ⟨a1, a2⟩ := push_area a _ _ hlt ha
        show (runSem l (m.ex s)).mem a = _
        rw [g2 a a2]
        exact p2 a a1
    · have hc : countOp .push (((i, m) :: l).map Prod.fst) = countOp .push (l.map Prod.fst) := by
        simp [countOp, ho]
      rw [hc] at hlt ⊢
      obtain ⟨g1, g2⟩ := ih' (m.ex s) hlt
      have hqi := (hq (i, m) (by simp)).resolve_left ho
      have hr : (m.ex s).regs .rsp = s.regs .rsp := hlaw.keep s .rsp (hsp ho hqi.2)
      have hm : (m.ex s).mem = s.mem := hlaw.mem hqi.1 s
      rw [hr] at g1 g2
      rw [hm] at g2
      exact ⟨g1, g2⟩

theorem slot_apart (s : W) (k : Nat) (hk : 8 * k + 8 ≤ 2 ^ 64) (x : W) (hx : InRange x s 8) :
    ¬ InRange x (s - BitVec.ofNat 64 (8 * k)) (8 * k) := by
  unfold InRange at *
  generalize hb : BitVec.ofNat 64 (8 * k) = b
  have hbn : b.toNat = 8 * k := by
    rw [← hb, BitVec.toNat_ofNat, Nat.mod_eq_of_lt (by omega)]
  rw [← hbn]
  bv_omega

/-- **C26, what holds.** If the pushes passed are eight bytes wide and no instruction passed
sets only a part of `rsp`, then at the place chosen for a moved push the return address lies
at `rsp` plus the recorded offset, unmodified.  Missing: 16-bit pushes and writes to `esp` or
`sp`, for which it is false. -/
theorem C26_entry_return_address_partial (insns : List (BInsn × Sem)) (mid : MoveInst)
    (h : entryData (insns.map Prod.fst) = some mid) (hp : ∀ p ∈ insns, PlainBefore p)
    (hlen : 8 * insns.length + 8 ≤ 2 ^ 64) :
    ∃ pre p rest, insns = pre ++ p :: rest ∧ p.1.addr = mid.newAddr ∧
      ∀ s : State, (runSem pre s).regs .rsp + BitVec.ofInt 64 mid.raOffset = s.regs .rsp ∧
        (runSem pre s).mem.read64 (s.regs .rsp) = s.mem.read64 (s.regs .rsp) := by
  obtain ⟨pre, i, rest, h1, h2, h3, h4, _⟩ := C26_entry_position _ _ h
  obtain ⟨pre', tail, e1, e2, e3⟩ := List.map_eq_append_iff.mp h1
  obtain ⟨p, rest', e4, e5, e6⟩ := List.map_eq_cons_iff.mp e3
  refine ⟨pre', p, rest', by rw [e1, e4], by rw [e5]; exact h2, fun s => ?_⟩
  have hle : countOp .push pre ≤ insns.length := by
    have : countOp .push pre ≤ pre.length := List.length_filter_le _ _
    have hl := congrArg List.length h1
    simp at hl
    omega
  have hrun := run_before pre' (fun q hq => hp q (by rw [e1]; simp [hq]))
    (fun q hq => h4 q.1 (by rw [← e2]; exact List.mem_map_of_mem hq)) s (by rw [e2]; omega)
  rw [e2] at hrun
  refine ⟨?_, read64_congr _ _ _ fun x hx => hrun.2 x (slot_apart _ _ (by omega) x hx)⟩
  rw [hrun.1, h3]
  have : BitVec.ofInt 64 (8 * (countOp .push pre : Int)) = BitVec.ofNat 64 (8 * countOp .push pre) := by
    rw [← BitVec.ofInt_natCast]; simp
  rw [this, BitVec.sub_add_cancel]

/-- `push rbx; lea rax, [rbx + 8]; ...` where `rbx` is then popped: the scan moves past the
push and finds `rax` and `rcx`. -/
example : entryData [pushInsn 16 .rax 8, leaInsn 17 .rax .rbx, leaInsn 20 .rcx .rbx] =
    some { newAddr := 17, raOffset := 8, saveCount := 2, reg1 := "x86_64::rax", reg2 := "x86_64::rcx" } := by
  decide

/-- **C26 is false.** After a 16-bit push the return address is not at the recorded
offset. -/
theorem C26_refuted : ∃ (insns : List (BInsn × Sem)) (mid : MoveInst) (pre rest : List (BInsn × Sem))
    (p : BInsn × Sem), (∀ q ∈ insns, Lawful q.1 q.2) ∧ entryData (insns.map Prod.fst) = some mid ∧
      insns = pre ++ p :: rest ∧ p.1.addr = mid.newAddr ∧
      ∀ s : State, (runSem pre s).regs .rsp + BitVec.ofInt 64 mid.raOffset ≠ s.regs .rsp := by
  refine ⟨[(pushInsn 16 .rax 2, pushSem .rax 2), (leaInsn 18 .rax .rbx, leaSem .rax .rbx 0),
    (leaInsn 21 .rcx .rbx, leaSem .rcx .rbx 0)],
    { newAddr := 18, raOffset := 8, saveCount := 2, reg1 := "x86_64::rax", reg2 := "x86_64::rcx" },
    [(pushInsn 16 .rax 2, pushSem .rax 2)], _, _, ?_, by decide, rfl, rfl, fun s => ?_⟩
  · intro q hq
    simp only [List.mem_cons, List.not_mem_nil, or_false] at hq
    rcases hq with rfl | rfl | rfl
    · exact push_lawful _ _ _
    · exact lea_lawful _ _ _ _
    · exact lea_lawful _ _ _ _
  · have e : (runSem [(pushInsn 16 .rax 2, pushSem .rax 2)] s).regs .rsp = s.regs .rsp - 2#64 := by
      simp [runSem, pushSem, State.set]
    rw [e]
    have : BitVec.ofInt 64 8 = 8#64 := by decide
    rw [this]
    bv_omega

/-! ## C27 -/

/-- Allowed after a moved check. -/
def QuietAfter (i : BInsn) : Prop :=
  i.op = .ret ∨ (i.writesMemory = false ∧ (i.op = .pop ∨ (i.movesSP = false ∧ i.readsFlags = false)))

/-- The scan's result designates a position followed by quiet instructions only. -/
structure ExitOk (insns : List BInsn) (sc : Scan) : Prop where
  pos : ∃ pre i rest, insns = pre ++ i :: rest ∧ i.addr = sc.newAddr ∧
    sc.dead = deadRegs (i :: rest) ∧ sc.raOffset = 8 * countOp .pop (i :: rest) ∧
    (∀ p ∈ i :: rest, QuietAfter p) ∧ i.op ≠ .ret
  count : sc.saveCount = min 2 sc.dead.length

theorem exitScan_ok (insns : List BInsn) : ∀ (rev suffix : List BInsn) (h : Nat) (sc : Scan),
    insns = rev.reverse ++ suffix → h = 8 * countOp .pop suffix → (∀ p ∈ suffix, QuietAfter p) →
    (sc = {} ∨ ExitOk insns sc) →
    (exitScan rev suffix h sc = {} ∨ ExitOk insns (exitScan rev suffix h sc)) := by
  intro rev
  induction rev with
  | nil => intro suffix h sc _ _ _ hsc; exact hsc
  | cons i rev ih =>
    intro suffix h sc he hh hq hsc
    have he' : insns = rev.reverse ++ i :: suffix := by rw [he]; simp
    rw [exitScan]
    split
    · rename_i hr
      refine ih (i :: suffix) h sc he' ?_ ?_ hsc
      · rw [hh]; simp [countOp, hr]
      · intro p hp
        rcases List.mem_cons.mp hp with rfl | hp
        · exact .inl hr
        · exact hq p hp
    rename_i hr
    split
    · exact hsc
    rename_i hw
    split
    · exact hsc
    rename_i hmf
    have hqi : QuietAfter i := by
      refine .inr ⟨by simpa using hw, ?_⟩
      by_cases hpop : i.op = .pop
      · exact .inl hpop
      · right
        constructor
        · cases h : i.movesSP with
          | false => rfl
          | true => exact absurd ⟨hpop, .inl h⟩ hmf
        · cases h : i.readsFlags with
          | false => rfl
          | true => exact absurd ⟨hpop, .inr h⟩ hmf
    have hq' : ∀ p ∈ i :: suffix, QuietAfter p := by
      intro p hp
      rcases List.mem_cons.mp hp with rfl | hp
      · exact hqi
      · exact hq p hp
    have hh' : (if i.op = .pop then h + 8 else h) = 8 * countOp .pop (i :: suffix) := by
      rw [hh]
      split
      · rename_i hp; simp [countOp, hp]; omega
      · rename_i hp; simp [countOp, hp]
    dsimp only
    generalize (if i.op = .pop then h + 8 else h) = h' at hh'
    have hsc' : sc.improve i.addr h' (deadRegs (i :: suffix)) = {} ∨
        ExitOk insns (sc.improve i.addr h' (deadRegs (i :: suffix))) := by
      rcases improve_count sc i.addr h' (deadRegs (i :: suffix)) with e | ⟨hne, e⟩
      · rw [e]; exact hsc
      · rw [e]
        exact .inr ⟨⟨rev.reverse, i, suffix, he', rfl, rfl, hh', hq', hr⟩, rfl⟩
    split
    · exact hsc'
    · exact ih (i :: suffix) h' _ he' hh' hq' hsc'

/-- **C27, position.** From the place chosen for a moved check to the end of the block there
are only returns, pops, and instructions that neither write memory, set `rsp` nor read flags;
the recorded offset is eight times the number of pops; the scratch registers are dead at the
place. -/
theorem C27_exit_position (insns : List BInsn) (mid : MoveInst) (h : exitData insns = some mid) :
    ∃ pre i rest, insns = pre ++ i :: rest ∧ i.addr = mid.newAddr ∧
      mid.raOffset = 8 * countOp .pop (i :: rest) ∧ (∀ p ∈ i :: rest, QuietAfter p) ∧
      i.op ≠ .ret ∧ Scratch2 (deadRegs (i :: rest)) mid := by
  unfold exitData at h
  dsimp only at h
  split at h
  · rename_i hc
    cases h
    rcases exitScan_ok insns insns.reverse [] 0 {} (by simp) rfl (by simp) (.inl rfl) with e |
      ⟨⟨pre, i, rest, h1, h2, h3, h4, h5, h6⟩, h7⟩
    · rw [e] at hc; exact absurd hc.1 (by decide)
    · refine ⟨pre, i, rest, h1, h2, ?_, h5, h6, ?_⟩
      · show ((exitScan insns.reverse [] 0 {}).raOffset : Int) = _
        rw [h4]; simp
      · rw [← h3]
        exact scan_data _ h7 hc.1 (by rw [h3]; exact deadRegs_nodup _)
  · cases h

/-- The instructions after a moved check behave as their operation suggests: a pop adds eight
to `rsp` and neither writes memory nor reads flags, and nothing sets a part of `rsp` only. -/
def PlainAfter (p : BInsn × Sem) : Prop :=
  Lawful p.1 p.2 ∧ (p.1.op = .pop → Pop8 p.2 ∧ RegRef.flag ∉ p.1.reads) ∧
    (p.1.op = .ret → RegRef.flag ∉ p.1.reads) ∧
    (p.1.op ≠ .pop → p.1.movesSP = false → ∀ n, RegRef.gpr .rsp n ∉ p.1.writes)

theorem run_after (l : List (BInsn × Sem)) (hp : ∀ p ∈ l, PlainAfter p)
    (hq : ∀ p ∈ l, QuietAfter p.1) (hr : ∀ p ∈ l, p.1.op ≠ .ret) : ∀ s : State,
    (runSem l s).regs .rsp = s.regs .rsp + BitVec.ofNat 64 (8 * countOp .pop (l.map Prod.fst)) ∧
    (runSem l s).mem = s.mem := by
  induction l with
  | nil => intro s; simp [runSem, countOp]
  | cons p l ih =>
    intro s
    obtain ⟨i, m⟩ := p
    obtain ⟨hlaw, hpop, _, hsp⟩ := hp (i, m) (by simp)
    obtain ⟨g1, g2⟩ := ih (fun q hq' => hp q (by simp [hq'])) (fun q hq' => hq q (by simp [hq']))
      (fun q hq' => hr q (by simp [hq'])) (m.ex s)
    have hqi := (hq (i, m) (by simp)).resolve_left (hr (i, m) (by simp))
    simp only at hlaw hpop hsp hqi
    have hm : (m.ex s).mem = s.mem := hlaw.mem hqi.1 s
    refine ⟨?_, by show (runSem l (m.ex s)).mem = _; rw [g2, hm]⟩
    show (runSem l (m.ex s)).regs .rsp = _
    rw [g1]
    by_cases ho : i.op = .pop
    · have hc : countOp .pop (((i, m) :: l).map Prod.fst) = countOp .pop (l.map Prod.fst) + 1 := by
        simp [countOp, ho]
      rw [hc, (hpop ho).1 s, Nat.mul_add, BitVec.ofNat_add]
      generalize BitVec.ofNat 64 (8 * countOp .pop (l.map Prod.fst)) = x
      generalize s.regs .rsp = y
      bv_omega
    · have hc : countOp .pop (((i, m) :: l).map Prod.fst) = countOp .pop (l.map Prod.fst) := by
        simp [countOp, ho]
      rw [hc, hlaw.keep s .rsp (hsp ho (hqi.2.resolve_left ho).1)]

/-- **C27, what holds.** If the block ends in its only return, pops do not target `rsp` and
nothing sets a part of `rsp`, then at the place chosen for a moved check `rsp` plus the
recorded offset is the value `rsp` will have at the return, and the word there is the one the
return will use.  Missing: `pop rsp` and writes to `esp` or `sp`, for which it is false. -/
theorem C27_exit_return_address_partial (body : List (BInsn × Sem)) (r : BInsn × Sem) (mid : MoveInst)
    (h : exitData ((body ++ [r]).map Prod.fst) = some mid) (hr : r.1.op = .ret)
    (hbody : ∀ p ∈ body, p.1.op ≠ .ret) (hp : ∀ p ∈ body, PlainAfter p) :
    ∃ pre p rest, body = pre ++ p :: rest ∧ p.1.addr = mid.newAddr ∧
      ∀ s : State, (runSem (p :: rest) s).regs .rsp = s.regs .rsp + BitVec.ofInt 64 mid.raOffset ∧
        (runSem (p :: rest) s).mem = s.mem := by
  obtain ⟨pre, i, rest, h1, h2, h3, h4, h5, _⟩ := C27_exit_position _ _ h
  obtain ⟨pre', tail, e1, e2, e3⟩ := List.map_eq_append_iff.mp h1
  obtain ⟨p, rest', e4, e5, e6⟩ := List.map_eq_cons_iff.mp e3
  -- the return is the last element of the tail
  have hlast : ∃ rest'', rest' = rest'' ++ [r] := by
    rcases List.eq_nil_or_concat rest' with hn | ⟨l, x, hl⟩
    · subst hn
      rw [e4] at e1
      have : r = p := by
        have := congrArg List.getLast? e1
        simpa using this
      subst this
      rw [← e5] at h5
      exact absurd hr h5
    · refine ⟨l, ?_⟩
      rw [e4, hl] at e1
      have : r = x := by
        have := congrArg List.getLast? e1
        rw [show pre' ++ p :: l.concat x = (pre' ++ p :: l) ++ [x] by simp] at this
        rw [List.getLast?_concat, List.getLast?_concat] at this
        exact Option.some.inj this
      rw [hl, this]
      simp
  obtain ⟨rest'', hrest⟩ := hlast
  have hbodyeq : body = pre' ++ p :: rest'' := by
    rw [e4, hrest] at e1
    have : body ++ [r] = (pre' ++ p :: rest'') ++ [r] := by rw [e1]; simp
    exact List.append_cancel_right this
  refine ⟨pre', p, rest'', hbodyeq, by rw [e5]; exact h2, fun s => ?_⟩
  have hsub : ∀ q ∈ p :: rest'', q ∈ body := fun q hq => by rw [hbodyeq]; exact List.mem_append_right _ hq
  have hrun := run_after (p :: rest'') (fun q hq => hp q (hsub q hq))
    (fun q hq => h4 q.1 (by
      rw [← e5, ← e6, hrest]
      rcases List.mem_cons.mp hq with rfl | hq
      · simp
      · exact List.mem_cons_of_mem _ (List.mem_map_of_mem (by simp [hq]))))
    (fun q hq => hbody q (hsub q hq)) s
  refine ⟨?_, hrun.2⟩
  rw [hrun.1, h3]
  have hc : countOp .pop (i :: rest) = countOp .pop ((p :: rest'').map Prod.fst) := by
    rw [← e5, ← e6, hrest]
    simp [countOp, List.filter_append, List.filter_cons, hr]
  rw [hc]
  have : ∀ n : Nat, BitVec.ofInt 64 (8 * (n : Int)) = BitVec.ofNat 64 (8 * n) := fun n => by
    rw [← BitVec.ofInt_natCast]; simp
  rw [this]

/-- `lea rax; pop rbx; pop rbp; ret`: the check can go before the pops. -/
example : exitData [leaInsn 16 .rax .rbx, popInsn 20 .rbx, popInsn 21 .rbp, retInsn 22] =
    some { newAddr := 20, raOffset := 16, saveCount := 2, reg1 := "x86_64::rbp", reg2 := "x86_64::rbx" } := by
  decide

/-- **C27 is false.** With a `pop rsp` on the way the value of `rsp` at the return is whatever
the program stack holds. -/
theorem C27_refuted : ∃ (body : List (BInsn × Sem)) (r : BInsn × Sem) (mid : MoveInst)
    (pre rest : List (BInsn × Sem)) (p : BInsn × Sem) (s : State),
    (∀ q ∈ body ++ [r], Lawful q.1 q.2) ∧ r.1.op = .ret ∧ (∀ q ∈ body, q.1.op ≠ .ret) ∧
    exitData ((body ++ [r]).map Prod.fst) = some mid ∧ body = pre ++ p :: rest ∧
    p.1.addr = mid.newAddr ∧
    (runSem (p :: rest) s).regs .rsp ≠ s.regs .rsp + BitVec.ofInt 64 mid.raOffset := by
  refine ⟨[(leaInsn 16 .rcx .rbx, leaSem .rcx .rbx 0), (popInsn 20 .rsp, popSem .rsp),
      (leaInsn 21 .rax .rbx, leaSem .rax .rbx 0)], (retInsn 25, retSem),
    { newAddr := 16, raOffset := 8, saveCount := 2, reg1 := "x86_64::rax", reg2 := "x86_64::rcx" },
    [], _, _, { regs := fun _ => 0x7000, flags := 0, gs := 0, mem := fun _ => 0 }, ?_, rfl, ?_, by decide,
    rfl, rfl, by decide⟩
  · intro q hq
    simp only [List.mem_append, List.mem_cons, List.not_mem_nil, or_false] at hq
    rcases hq with (rfl | rfl | rfl) | rfl
    · exact lea_lawful _ _ _ _
    · exact pop_lawful _ _
    · exact lea_lawful _ _ _ _
    · exact ret_lawful _
  · intro q hq
    simp only [List.mem_cons, List.not_mem_nil, or_false] at hq
    rcases hq with rfl | rfl | rfl <;> decide

end Verif
