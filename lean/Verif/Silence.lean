import Verif.Ending

/-!
# Specification: programs in memory are not silent forever

Endless executions step by step: every step of a thread or of a buffer counts, also those of which the outside world sees nothing.
-/

namespace Verif

variable {ι κ L : Type} [DecidableEq ι]

/-- An endless execution of the program in memory: its `n`th step is one of thread `who n`, which does `act n`. -/
structure Image.Endless (I : Image κ) (P : CoreGuest κ L) (M0 : Cores ι κ) (N : Nat → Cores ι (Footing κ)) (who : Nat → ι)
    (act : Nat → List L) : Prop where
  start : N 0 = M0.load
  step : ∀ n, ByteMove P I (N n) (who n) (act n) (some (N (n + 1)))

/-- Behind a snippet there may be another one, and so on, but not forever: no more than `r k` from `k` on. -/
def CoreGuest.Chains (P : CoreGuest κ L) (r : κ → Nat) : Prop := ∀ k c k', P.site k = some (c, k') → r k' < r k

end Verif
