import Verif.X86

/-!
# The status flags of the machine model

What the manual says about the flags set by additions, subtractions and comparisons, stated about numbers.
C57 speaks of these flags.
-/

namespace Verif

/-- The ones among the eight lowest bits. -/
def lowOnes {n : Nat} (x : BitVec n) : Nat := ((List.range 8).filter fun i => x.getLsbD i).length

theorem mkFlags_bits (cf pf af zf sf of : Bool) :
    (mkFlags cf pf af zf sf of).getLsbD 0 = cf ∧ (mkFlags cf pf af zf sf of).getLsbD 2 = pf ∧
    (mkFlags cf pf af zf sf of).getLsbD 4 = af ∧ (mkFlags cf pf af zf sf of).getLsbD 6 = zf ∧
    (mkFlags cf pf af zf sf of).getLsbD 7 = sf ∧ (mkFlags cf pf af zf sf of).getLsbD 11 = of ∧
    mkFlags cf pf af zf sf of &&& ~~~0x8d5#64 = 2 := by
  revert cf pf af zf sf of
  decide

theorem parity_ones {n : Nat} (x : BitVec n) : parity x = decide (lowOnes x % 2 = 0) := by
  have e : List.range 8 = [0, 1, 2, 3, 4, 5, 6, 7] := rfl
  unfold parity lowOnes
  rw [e]
  simp only [List.filter_cons, List.filter_nil]
  cases x.getLsbD 0 <;> cases x.getLsbD 1 <;> cases x.getLsbD 2 <;> cases x.getLsbD 3 <;>
    cases x.getLsbD 4 <;> cases x.getLsbD 5 <;> cases x.getLsbD 6 <;> cases x.getLsbD 7 <;> rfl

/-- Does a number fit into a signed word? -/
def FitsSigned (n : Nat) (x : Int) : Prop := -2 ^ (n - 1) ≤ x ∧ x < 2 ^ (n - 1)

/-- **The flags of a subtraction or comparison**: carry if the unsigned difference is negative, parity of
the low byte, auxiliary carry if the difference of the low digits is negative, zero, sign, overflow if the
signed difference does not fit; all other status bits are as in the model's constant. -/
theorem cmpFlags_bits {n : Nat} (a b : BitVec n) :
    ((cmpFlags a b).getLsbD 0 = true ↔ (a.toNat : Int) - b.toNat < 0) ∧
    ((cmpFlags a b).getLsbD 2 = true ↔ lowOnes (a - b) % 2 = 0) ∧
    ((cmpFlags a b).getLsbD 4 = true ↔ (a.toNat % 16 : Int) - b.toNat % 16 < 0) ∧
    ((cmpFlags a b).getLsbD 6 = true ↔ a = b) ∧
    ((cmpFlags a b).getLsbD 7 = true ↔ (a - b).toInt < 0) ∧
    ((cmpFlags a b).getLsbD 11 = true ↔ ¬ FitsSigned n (a.toInt - b.toInt)) ∧
    cmpFlags a b &&& ~~~0x8d5#64 = 2 := by
  unfold cmpFlags
  obtain ⟨h0, h2, h4, h6, h7, h11, hr⟩ := mkFlags_bits (decide (a.toNat < b.toNat)) (parity (a - b))
    (decide (a.toNat % 16 < b.toNat % 16)) (decide (a = b)) (a - b).msb
    (a.msb != b.msb && (a - b).msb != a.msb)
  rw [h0, h2, h4, h6, h7, h11]
  refine ⟨by simp; omega, by rw [parity_ones]; simp, by simp; omega, by simp, ?_, ?_, hr⟩
  · rw [BitVec.msb_eq_toInt]; simp
  · have h : (a.msb != b.msb && (a - b).msb != a.msb) = a.ssubOverflow b := by
      rw [BitVec.ssubOverflow_eq]
      cases a.msb <;> cases b.msb <;> cases (a - b).msb <;> rfl
    rw [h]
    simp only [BitVec.ssubOverflow, FitsSigned, Bool.or_eq_true, decide_eq_true_eq]
    omega

/-- **The flags of an addition**: carry if the unsigned sum does not fit, parity of the low byte, auxiliary
carry if the sum of the low digits is more than a digit, zero, sign, overflow if the signed sum does not
fit. -/
theorem addFlags_bits {n : Nat} (a b : BitVec n) :
    ((addFlags a b).getLsbD 0 = true ↔ 2 ^ n ≤ a.toNat + b.toNat) ∧
    ((addFlags a b).getLsbD 2 = true ↔ lowOnes (a + b) % 2 = 0) ∧
    ((addFlags a b).getLsbD 4 = true ↔ 16 ≤ a.toNat % 16 + b.toNat % 16) ∧
    ((addFlags a b).getLsbD 6 = true ↔ a + b = 0) ∧
    ((addFlags a b).getLsbD 7 = true ↔ (a + b).toInt < 0) ∧
    ((addFlags a b).getLsbD 11 = true ↔ ¬ FitsSigned n (a.toInt + b.toInt)) ∧
    addFlags a b &&& ~~~0x8d5#64 = 2 := by
  unfold addFlags
  obtain ⟨h0, h2, h4, h6, h7, h11, hr⟩ := mkFlags_bits (decide ((a + b).toNat < a.toNat)) (parity (a + b))
    (decide (16 ≤ a.toNat % 16 + b.toNat % 16)) (decide (a + b = 0)) (a + b).msb
    (a.msb == b.msb && (a + b).msb != a.msb)
  rw [h0, h2, h4, h6, h7, h11]
  refine ⟨?_, by rw [parity_ones]; simp, by simp, by simp, ?_, ?_, hr⟩
  · rw [decide_eq_true_eq, BitVec.toNat_add]
    have ha := a.isLt
    have hb := b.isLt
    by_cases h : a.toNat + b.toNat < 2 ^ n
    · rw [Nat.mod_eq_of_lt h]; omega
    · rw [Nat.mod_eq_sub_mod (by omega), Nat.mod_eq_of_lt (by omega)]; omega
  · rw [BitVec.msb_eq_toInt]; simp
  · have h : (a.msb == b.msb && (a + b).msb != a.msb) = a.saddOverflow b := by
      rw [BitVec.saddOverflow_eq]
      cases a.msb <;> cases b.msb <;> cases (a + b).msb <;> rfl
    rw [h]
    simp only [BitVec.saddOverflow, FitsSigned, Bool.or_eq_true, decide_eq_true_eq]
    omega

/-- Comparing the least signed word with 1 overflows and borrows from the low digit only; adding all ones
and 1 carries and gives zero. -/
example : cmpFlags 0x8000000000000000#64 1#64 = 0x816#64 ∧
    addFlags 0xffffffffffffffff#64 1#64 = 0x57#64 := by decide

end Verif
