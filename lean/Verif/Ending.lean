import Verif.ImageCores

/-!
# Specification: snippets come to an end

Whatever other threads and all buffers do in the meantime, a thread which has come to a snippet gets behind it after finitely many
of its own instructions: there is a number of them which no execution exceeds, and until the end is reached there is a next one.
-/

namespace Verif

variable {ι κ L : Type} [DecidableEq ι]

/-- The thread executes the next instruction of the snippet in which it is. -/
inductive ByteNext (I : Image κ) (i : ι) (N : Cores ι (Footing κ)) : Cores ι (Footing κ) → Prop
  | next {k k' : κ} {a x x' : W} {n : Nat} {s' : State} {ws : List (W × Byte)} : N.pos i = .inside k x →
      I.site k = some (a, n, k') → Inside a n x → executeAt I.avx I.text x (N.at_ i) = .next x' s' →
      afterWrites (N.view i) ws = s'.mem → (∀ b ∈ ws, ∃ p ∈ storesAt I.text x (N.at_ i), InRange b.1 p.1 p.2) →
      ByteNext I i N (N.put i (.inside k x') s'.cpu ws)

/-- Executions while the thread stays in its snippet, with the number of instructions which it executes there; meanwhile other
threads and all buffers do anything. -/
inductive ByteTurns (P : CoreGuest κ L) (I : Image κ) (i : ι) : Cores ι (Footing κ) → Nat → Cores ι (Footing κ) → Prop
  | refl (N : Cores ι (Footing κ)) : ByteTurns P I i N 0 N
  | next {N N' N'' : Cores ι (Footing κ)} {m : Nat} : ByteNext I i N N' → ByteTurns P I i N' m N'' → ByteTurns P I i N (m + 1) N''
  | drain {N N'' : Cores ι (Footing κ)} {m : Nat} {w : W × Byte} {ws : List (W × Byte)} : N.buf i = w :: ws →
      ByteTurns P I i (N.drain i w ws) m N'' → ByteTurns P I i N m N''
  | other {N N' N'' : Cores ι (Footing κ)} {m : Nat} {j : ι} {ls : List L} : j ≠ i → ByteMove P I N j ls (some N') →
      ByteTurns P I i N' m N'' → ByteTurns P I i N m N''

/-- Snippets come to an end. -/
def Image.Ends (I : Image κ) (P : CoreGuest κ L) (M0 : Cores ι κ) : Prop :=
  ∀ tr N (i : ι), ByteCores P I M0 tr (some N) → ∃ n, ∀ m N', ByteTurns P I i N m N' →
    m ≤ n ∧ ∀ k x, N'.pos i = .inside k x → (∃ N'', ByteNext I i N' N'') ∨ ∃ a l k', I.site k = some (a, l, k') ∧ x = a + BitVec.ofNat 64 l

end Verif
