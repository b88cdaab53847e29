import Verif.X86

/-! Lemmas about the machine: memory, determinism, straight-line code. -/

namespace Verif

/-- Byte ranges `[a, a+n)` and `[b, b+m)` (modulo 2^64) do not meet. -/
def Sep (a : W) (n : Nat) (b : W) (m : Nat) : Prop :=
  ∀ i j : Nat, i < n → j < m → a + BitVec.ofNat 64 i ≠ b + BitVec.ofNat 64 j

/-- `x` lies in the byte range `[a, a+n)` (modulo 2^64). -/
def InRange (x a : W) (n : Nat) : Prop := (x - a).toNat < n

theorem Sep.symm {a b : W} {n m : Nat} (h : Sep a n b m) : Sep b m a n :=
  fun i j hi hj e => h j i hj hi e.symm

theorem add_ofNat_sub (a b : W) : a + BitVec.ofNat 64 (b - a).toNat = b := by
  rw [BitVec.ofNat_toNat, BitVec.setWidth_eq, BitVec.add_comm, BitVec.sub_add_cancel]

theorem sep_iff {a b : W} {n m : Nat} (hn : 0 < n) (hm : 0 < m) :
    Sep a n b m ↔ n ≤ (b - a).toNat ∧ m ≤ (a - b).toNat := by
  constructor
  · intro h
    constructor
    · refine Nat.le_of_not_lt fun hc => h (b - a).toNat 0 hc hm ?_
      rw [add_ofNat_sub]; simp
    · refine Nat.le_of_not_lt fun hc => h 0 (a - b).toNat hn hc ?_
      rw [add_ofNat_sub]; simp
  · rintro ⟨h1, h2⟩ i j hi hj e
    have : a.toNat < 2 ^ 64 := a.isLt
    have : b.toNat < 2 ^ 64 := b.isLt
    have e' := congrArg BitVec.toNat e
    simp only [BitVec.toNat_add, BitVec.toNat_ofNat, BitVec.toNat_sub] at *
    omega

theorem sep_mono {a b : W} {n m n' m' : Nat} (h : Sep a n b m) (hn : n' ≤ n) (hm : m' ≤ m) :
    Sep a n' b m' := fun i j hi hj => h i j (by omega) (by omega)

theorem sep_not_inRange {a b x : W} {n m : Nat} (h : Sep a n b m) (hx : InRange x a n) :
    ¬ InRange x b m := by
  intro hx'
  refine h (x - a).toNat (x - b).toNat hx hx' ?_
  rw [add_ofNat_sub, add_ofNat_sub]

theorem write64_inRange (m : Mem) (a v x : W) (h : InRange x a 8) :
    m.write64 a v x = v.extractLsb' (8 * (x - a).toNat) 8 := if_pos h

theorem write64_outRange (m : Mem) (a v x : W) (h : ¬ InRange x a 8) :
    m.write64 a v x = m x := if_neg h

theorem inRange_add {a : W} {k n : Nat} (hk : k < n) (hk' : k < 2 ^ 64) :
    InRange (a + BitVec.ofNat 64 k) a n := by
  rw [InRange, BitVec.add_comm, BitVec.add_sub_cancel, BitVec.toNat_ofNat]
  rw [Nat.mod_eq_of_lt hk']; exact hk

theorem inRange_self {a : W} {n : Nat} (hn : 0 < n) : InRange a a n := by
  rw [InRange, BitVec.sub_self]; simpa using hn

theorem read64_eq (m m' : Mem) (a : W) (h : ∀ x, InRange x a 8 → m x = m' x) :
    m.read64 a = m'.read64 a := by
  have hh : ∀ k : Nat, k < 8 → InRange (a + BitVec.ofNat 64 k) a 8 :=
    fun k hk => inRange_add hk (by omega)
  unfold Mem.read64
  rw [h (a + 7) (hh 7 (by omega)), h (a + 6) (hh 6 (by omega)), h (a + 5) (hh 5 (by omega)),
    h (a + 4) (hh 4 (by omega)), h (a + 3) (hh 3 (by omega)), h (a + 2) (hh 2 (by omega)),
    h (a + 1) (hh 1 (by omega)), h a (inRange_self (by omega))]

theorem read64_write64_sep (m : Mem) (a b v : W) (h : Sep a 8 b 8) :
    (m.write64 b v).read64 a = m.read64 a :=
  read64_eq _ _ _ fun _ hx => write64_outRange _ _ _ _ (sep_not_inRange h hx)

theorem append8_extract (v : W) :
    v.extractLsb' 56 8 ++ v.extractLsb' 48 8 ++ v.extractLsb' 40 8 ++ v.extractLsb' 32 8 ++
      v.extractLsb' 24 8 ++ v.extractLsb' 16 8 ++ v.extractLsb' 8 8 ++ v.extractLsb' 0 8 = v := by
  apply BitVec.eq_of_getLsbD_eq
  intro i hi
  simp only [BitVec.getLsbD_append, BitVec.getLsbD_extractLsb']
  repeat' split
  all_goals
    rw [decide_eq_true (by omega), Bool.true_and]
    congr 1
    omega

theorem write64_byte (m : Mem) (a v : W) (k : Nat) (hk : k < 8) :
    m.write64 a v (a + BitVec.ofNat 64 k) = v.extractLsb' (8 * k) 8 := by
  rw [write64_inRange _ _ _ _ (inRange_add hk (by omega)), BitVec.add_comm, BitVec.add_sub_cancel,
    BitVec.toNat_ofNat, Nat.mod_eq_of_lt (by omega)]

theorem read64_write64 (m : Mem) (a v : W) : (m.write64 a v).read64 a = v := by
  have h0 : m.write64 a v a = v.extractLsb' 0 8 := by
    have := write64_byte m a v 0 (by omega)
    simpa using this
  have h : ∀ k : Nat, k < 8 →
      m.write64 a v (a + BitVec.ofNat 64 k) = v.extractLsb' (8 * k) 8 := write64_byte m a v
  unfold Mem.read64
  rw [h0, show a + 7 = a + BitVec.ofNat 64 7 from rfl, h 7 (by omega),
    show a + 6 = a + BitVec.ofNat 64 6 from rfl, h 6 (by omega),
    show a + 5 = a + BitVec.ofNat 64 5 from rfl, h 5 (by omega),
    show a + 4 = a + BitVec.ofNat 64 4 from rfl, h 4 (by omega),
    show a + 3 = a + BitVec.ofNat 64 3 from rfl, h 3 (by omega),
    show a + 2 = a + BitVec.ofNat 64 2 from rfl, h 2 (by omega),
    show a + 1 = a + BitVec.ofNat 64 1 from rfl, h 1 (by omega)]
  exact append8_extract v

theorem read32_eq_low (m : Mem) (a : W) : m.read32 a = (m.read64 a).setWidth 32 := by
  apply BitVec.eq_of_getLsbD_eq
  intro i hi
  unfold Mem.read32 Mem.read64
  simp only [BitVec.getLsbD_setWidth, BitVec.getLsbD_append]
  rw [decide_eq_true hi, Bool.true_and]
  repeat' split
  all_goals first | rfl | omega

theorem mkFlags_zf (cf pf af zf sf of : Bool) : (mkFlags cf pf af zf sf of).getLsbD 6 = zf := by
  cases cf <;> cases pf <;> cases af <;> cases zf <;> cases sf <;> cases of <;> rfl

theorem cmpFlags_zf {n : Nat} (a b : BitVec n) : (cmpFlags a b).getLsbD 6 = decide (a = b) :=
  mkFlags_zf ..

/-! ## Running -/

theorem run_mono {w : Code} {n : Nat} {k : Code} {s : State} {o : Outcome}
    (h : run w n k s = some o) (m : Nat) (hm : n ≤ m) : run w m k s = some o := by
  induction n generalizing m k s with
  | zero => simp [run] at h
  | succ n ih =>
    obtain ⟨m, rfl⟩ : ∃ m', m = m' + 1 := ⟨m - 1, by omega⟩
    cases k with
    | nil => simpa [run] using h
    | cons i k =>
      simp only [run] at h ⊢
      split <;> rename_i he <;> simp only [he] at h
      · exact ih h m (by omega)
      · split <;> rename_i ht <;> simp only [ht] at h
        · exact ih h m (by omega)
        · exact h
      · exact h

/-- A snippet has at most one outcome. -/
theorem run_det {w : Code} {n m : Nat} {k : Code} {s : State} {o o' : Outcome}
    (h : run w n k s = some o) (h' : run w m k s = some o') : o = o' := by
  have a := run_mono h (max n m) (Nat.le_max_left ..)
  have b := run_mono h' (max n m) (Nat.le_max_right ..)
  rw [a] at b
  exact Option.some.inj b

theorem Exits.det {w : Code} {s s₁ s₂ : State} (h₁ : Exits w s s₁) (h₂ : Exits w s s₂) :
    s₁ = s₂ := by
  obtain ⟨n, h₁⟩ := h₁
  obtain ⟨m, h₂⟩ := h₂
  have := run_det h₁ h₂
  injection this

theorem Exits.not_traps {w : Code} {s s' : State} (h : Exits w s s') : ¬ Traps w s := by
  rintro ⟨m, s'', h₂⟩
  obtain ⟨n, h₁⟩ := h
  have := run_det h₁ h₂
  injection this

/-- Outcome of a suffix. -/
def Ends (w k : Code) (s : State) (o : Outcome) : Prop := ∃ n, run w n k s = some o

theorem ends_nil (w : Code) (s : State) : Ends w [] s (.exit s) := ⟨1, rfl⟩

theorem ends_next {w k : Code} {i : Instr} {s s' : State} {o : Outcome}
    (he : exec i s = .next s') (h : Ends w k s' o) : Ends w (i :: k) s o := by
  obtain ⟨n, h⟩ := h
  exact ⟨n + 1, by simpa [run, he] using h⟩

theorem ends_goto {w k k' : Code} {i : Instr} {l : Label} {s s' : State} {o : Outcome}
    (he : exec i s = .goto l s') (ht : target l w = some k') (h : Ends w k' s' o) :
    Ends w (i :: k) s o := by
  obtain ⟨n, h⟩ := h
  exact ⟨n + 1, by simpa [run, he, ht] using h⟩

theorem ends_trap {w k : Code} {i : Instr} {s s' : State}
    (he : exec i s = .trap s') : Ends w (i :: k) s (.trap s') :=
  ⟨1, by simp [run, he]⟩

theorem exits_iff {w : Code} {s s' : State} : Exits w s s' ↔ Ends w w s (.exit s') := Iff.rfl

theorem traps_iff {w : Code} {s : State} : Traps w s ↔ ∃ s', Ends w w s (.trap s') :=
  ⟨fun ⟨n, s', h⟩ => ⟨s', n, h⟩, fun ⟨s', n, h⟩ => ⟨n, s', h⟩⟩
end Verif
