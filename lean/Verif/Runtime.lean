import Verif.CheckLemmas

/-!
# The thread area and its initialisation

The layout which `/repo/src/runtime.c` sets up (offsets from the gs base):
0 shadow pointer, 8 scratch word, 16 and 24 guard words, 32 first entry.
-/

namespace Verif

/-- `__stack_sz`, `/repo/src/runtime.c:21`. -/
def regionSize : Nat := 8 * 1024 * 1024

/-- `__shadow_guard_init_stack`, `/repo/src/runtime.c:38-51`: the effect on memory and
gs, where `addr` is what `malloc` returned and `prctlOk` says whether `arch_prctl`
succeeded; `none` is `abort()`.  The registers which the C code clobbers are not
modelled.  Nothing checks `addr` for NULL. -/
def initStack (prctlOk : Bool) (addr : W) (s : State) : Option State :=
  if prctlOk then
    let m := s.mem.write64 (addr + 8) 0
    let m := m.write64 (addr + 8 + 8) 0
    let m := m.write64 (addr + 8 + 8 + 8) 0
    some { s with gs := addr, mem := m.write64 addr (addr + 8 + 8 + 8 + 8) }
  else none

/-- `litecfi_init_mem_region`, the C text produced by `MemRegionInit`,
`/repo/src/codegen.cc:39-57`. -/
def initGenerated (validateFrame prctlOk : Bool) (addr : W) (s : State) : Option State :=
  if prctlOk then
    let m := s.mem.write64 (addr + 8) 0
    let (m, p) := if validateFrame then (m.write64 (addr + 8 + 8) 0, addr + 8 + 8 + 8)
      else (m, addr + 8 + 8)
    some { s with gs := addr, mem := m.write64 addr p }
  else none

/-- The size the generated initialiser allocates, `/repo/src/codegen.cc:41`. -/
def generatedSize : Nat := 1024

/-! ## Specification: a thread area holding recorded addresses -/

/-- The thread area at `g` holds the recorded addresses `l`, topmost first. -/
structure Recorded (g : W) (l : List W) (s : State) : Prop where
  gs : s.gs = g
  pointer : s.shadow = g + BitVec.ofNat 64 (32 + 8 * l.length)
  holds : s.Holds l
  /-- the second guard word -/
  guard : s.mem.read64 (g + 16) = 0
  /-- everything is inside the region -/
  room : 32 + 8 * l.length ≤ regionSize

/-- The return address at `R` and the `n` bytes below the stack pointer are outside the
thread area and disjoint. -/
structure Apart (g R : W) (n : Nat) (s : State) : Prop where
  ret : Sep R 8 g regionSize
  save : Sep (s.regs .rsp - BitVec.ofNat 64 n) n g regionSize
  ret_save : Sep R 8 (s.regs .rsp - BitVec.ofNat 64 n) n

/-! ## Offsets within the area -/

theorem off_toNat {g : W} {a : Nat} (ha : a < 2 ^ 64) : (g + BitVec.ofNat 64 a - g).toNat = a := by
  have : g + BitVec.ofNat 64 a - g = BitVec.ofNat 64 a := by bv_omega
  rw [this, BitVec.toNat_ofNat, Nat.mod_eq_of_lt ha]

theorem sep_offsets (g : W) {a n b m : Nat} (ha : a + n ≤ regionSize) (hb : b + m ≤ regionSize)
    (h : a + n ≤ b ∨ b + m ≤ a) (hn : 0 < n) (hm : 0 < m) :
    Sep (g + BitVec.ofNat 64 a) n (g + BitVec.ofNat 64 b) m := by
  have hr : regionSize = 8388608 := rfl
  rw [sep_iff hn hm]
  have e1 : g + BitVec.ofNat 64 b - (g + BitVec.ofNat 64 a) =
      BitVec.ofNat 64 b - BitVec.ofNat 64 a := by bv_omega
  have e2 : g + BitVec.ofNat 64 a - (g + BitVec.ofNat 64 b) =
      BitVec.ofNat 64 a - BitVec.ofNat 64 b := by bv_omega
  rw [e1, e2]
  simp only [BitVec.toNat_sub, BitVec.toNat_ofNat]
  omega

theorem sep_in {g b : W} {a n m : Nat} (h : Sep b m g regionSize) (ha : a + n ≤ regionSize) :
    Sep (g + BitVec.ofNat 64 a) n b m := by
  have hr : regionSize = 8388608 := rfl
  refine sep_sub_left h.symm ?_
  rw [off_toNat (by omega)]; exact ha

theorem Recorded.slot {g : W} {l : List W} {s : State} (h : Recorded g l s) {i : Nat}
    (hi : i ≤ l.length) : s.shadow - BitVec.ofNat 64 (8 * (i + 1)) =
      g + BitVec.ofNat 64 (24 + 8 * (l.length - i)) := by
  rw [h.pointer]
  have := h.room
  have hr : regionSize = 8388608 := rfl
  bv_omega

theorem gs_zero (g : W) : g + BitVec.ofNat 64 0 = g := BitVec.add_zero g

theorem Recorded.pushSep {g R : W} {l : List W} {s : State} {n : Nat} (h : Recorded g l s)
    (ha : Apart g R n s) (hroom : 32 + 8 * l.length + 8 ≤ regionSize) : PushSep R n s where
  slot_gs := by
    rw [h.pointer, h.gs]
    have := sep_offsets g (a := 32 + 8 * l.length) (n := 8) (b := 0) (m := 8) hroom (by decide)
      (Or.inr (by omega)) (by decide) (by decide)
    rwa [gs_zero] at this
  ret_save := ha.ret_save
  slot_save := by rw [h.pointer]; exact sep_in ha.save hroom
  gs_save := by
    rw [h.gs]
    have := sep_in (a := 0) (n := 8) ha.save (by decide)
    rwa [gs_zero] at this

theorem Recorded.checkSep {g R : W} {l : List W} {s : State} {n : Nat} (h : Recorded g l s)
    (ha : Apart g R n s) : CheckSep R n (l.length + 1) s where
  ret_gs := by
    rw [h.gs]
    have := sep_in (a := 0) (n := 8) ha.ret (by decide)
    rw [gs_zero] at this; exact this.symm
  ret_save := ha.ret_save
  gs_save := by
    rw [h.gs]
    have := sep_in (a := 0) (n := 8) ha.save (by decide)
    rwa [gs_zero] at this
  ent_gs := fun i hi => by
    have hroom := h.room
    rw [h.slot (by omega), h.gs]
    have := sep_offsets g (a := 24 + 8 * (l.length - i)) (n := 8) (b := 0) (m := 8) (by omega)
      (by decide) (Or.inr (by omega)) (by decide) (by decide)
    rwa [gs_zero] at this
  ent_save := fun i hi => by
    have hroom := h.room
    rw [h.slot (by omega)]
    exact sep_in ha.save (by omega)

/-- A push in an area with room records its return address. -/
theorem Recorded.push {free : Reg → Prop} {g R : W} {l : List W} {s s' : State} {n : Nat}
    (h : Recorded g l s) (ha : Apart g R n s) (hroom : 32 + 8 * l.length + 8 ≤ regionSize)
    (hp : Pushed free R n s s') : Recorded g (s.mem.read64 R :: l) s' where
  gs := hp.same.gs.trans h.gs
  pointer := by
    rw [hp.pointer, h.pointer, List.length_cons]; bv_omega
  holds := by
    refine hp.holds h.holds ?_ ?_ ?_
    · intro i hi
      rw [h.slot hi, h.pointer]
      exact sep_offsets g (by omega) (by omega) (Or.inl (by omega)) (by decide) (by decide)
    · intro i hi; exact (h.checkSep ha).ent_gs i (by omega)
    · intro i hi; exact (h.checkSep ha).ent_save i (by omega)
  guard := by
    rw [← h.guard]
    refine read64_eq _ _ _ fun x hx => hp.same.mem x ?_
    intro p hpm
    simp only [List.mem_cons, List.not_mem_nil, or_false] at hpm
    rcases hpm with rfl | rfl | rfl
    · refine sep_not_inRange ?_ hx
      rw [h.pointer]
      exact sep_offsets g (a := 16) (m := 8) (by decide) (by omega) (Or.inl (by omega))
        (by decide) (by decide)
    · refine sep_not_inRange ?_ hx
      rw [h.gs]
      have := sep_offsets g (a := 16) (n := 8) (b := 0) (m := 8) (by decide) (by decide)
        (Or.inr (by decide)) (by decide) (by decide)
      rwa [gs_zero] at this
    · refine sep_not_inRange ?_ hx
      exact sep_in (a := 16) ha.save (by decide)
  room := by rw [List.length_cons]; omega

/-- An accepting check leaves the entries below the one found. -/
theorem Recorded.check {free : Reg → Prop} {g R : W} {l : List W} {s s' : State} {n i : Nat}
    (h : Recorded g l s) (ha : Apart g R n s) (hi : i < l.length)
    (hc : Checked free n i s s') : Recorded g (l.drop (i + 1)) s' where
  gs := hc.same.gs.trans h.gs
  pointer := by
    have := h.room
    have hr : regionSize = 8388608 := rfl
    rw [hc.pointer, h.slot (Nat.le_of_lt hi), List.length_drop]
    congr 2; omega
  holds := hc.holds h.holds (h.checkSep ha) hi
  guard := by
    rw [← h.guard]
    refine read64_eq _ _ _ fun x hx => hc.same.mem x ?_
    intro p hpm
    simp only [List.mem_cons, List.not_mem_nil, or_false] at hpm
    rcases hpm with rfl | rfl
    · refine sep_not_inRange ?_ hx
      rw [h.gs]
      have := sep_offsets g (a := 16) (n := 8) (b := 0) (m := 8) (by decide) (by decide)
        (Or.inr (by decide)) (by decide) (by decide)
      rwa [gs_zero] at this
    · exact sep_not_inRange (sep_in (a := 16) ha.save (by decide)) hx
  room := by have := h.room; rw [List.length_drop]; omega

/-- Whatever leaves the entries, the guards and the shadow pointer alone. -/
theorem Recorded.keep {g : W} {l : List W} {s s' : State} (h : Recorded g l s)
    (hg : s'.gs = s.gs)
    (hm : ∀ x, InRange x g 8 ∨ InRange x (g + 16) (regionSize - 16) → s'.mem x = s.mem x) :
    Recorded g l s' := by
  have hr : regionSize = 8388608 := rfl
  have hroom := h.room
  have hsh : s'.shadow = s.shadow := by
    rw [State.shadow, State.shadow, hg, h.gs]
    exact read64_eq _ _ _ fun x hx => hm x (Or.inl hx)
  have inside : ∀ a, 16 ≤ a → a + 8 ≤ regionSize →
      s'.mem.read64 (g + BitVec.ofNat 64 a) = s.mem.read64 (g + BitVec.ofNat 64 a) := by
    intro a h1 h2
    refine read64_eq _ _ _ fun x hx => hm x (Or.inr (inRange_sub hx ?_))
    have : g + BitVec.ofNat 64 a - (g + 16) = BitVec.ofNat 64 (a - 16) := by bv_omega
    rw [this, BitVec.toNat_ofNat, Nat.mod_eq_of_lt (by omega)]
    omega
  have hent : ∀ i, i ≤ l.length → s'.entry i = s.entry i := by
    intro i hi
    rw [State.entry, State.entry, hsh, h.slot hi]
    exact inside _ (by omega) (by omega)
  exact ⟨hg.trans h.gs, hsh.trans h.pointer,
    ⟨fun i hi => (hent i (Nat.le_of_lt hi)).trans (h.holds.entries i hi),
      (hent _ (Nat.le_refl _)).trans h.holds.guard⟩,
    (inside 16 (by decide) (by decide)).trans h.guard, hroom⟩

end Verif
