import Verif.SnippetSpec

/-! A concrete machine state used to show that hypotheses can be met. -/

namespace Verif

/-- Memory which holds the given words at the given addresses and zero elsewhere. -/
def memOf (l : List (W × W)) : Mem := l.foldr (fun p m => m.write64 p.1 p.2) fun _ => 0

/-- rsp = 0x7000, gs = 0x100000; the return address 0x401000 is at the top of the
program stack, the shadow stack holds `l` (top first) above a guard at 0x100018. -/
def sampleState (ret : W) (l : List W) : State where
  regs := fun r => if r = .rsp then 0x7000 else if r = .rax then 5 else 7
  flags := 0x246
  gs := 0x100000
  mem := memOf (((0x7000, ret) :: (0x100000, 0x100020 + BitVec.ofNat 64 (8 * l.length)) ::
    (l.reverse.zipIdx.map fun p => (0x100020 + BitVec.ofNat 64 (8 * p.2), p.1))))

/-- Decidable form of `Sep`. -/
theorem sep_of_le {a b : W} {n m : Nat} (hn : 0 < n) (hm : 0 < m)
    (h : n ≤ (b - a).toNat ∧ m ≤ (a - b).toNat) : Sep a n b m := (sep_iff hn hm).2 h

theorem sep_zero {a b : W} {n : Nat} : Sep a n b 0 := fun _ _ _ hj => absurd hj (Nat.not_lt_zero _)

end Verif
