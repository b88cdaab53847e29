import Verif.Futures

/-!
# Specification: executions without end, and what programs refuse

What the outside world sees of executions which go on forever, as servers do, and what a program has definitely stopped doing.
-/

namespace Verif

variable {ι κ L : Type} [DecidableEq ι]

/-- An execution of the original which does `s 0`, `s 1`, … forever; after `n` of them, memory outside of the areas `A` is `v n`, and
the threads are at the points `q n`. -/
def CoreGuest.Emits (P : CoreGuest κ L) (A : ι → W → Prop) (M0 : Cores ι κ) (s : Nat → ι × L) (v : Nat → Mem) (q : Nat → ι → κ) : Prop :=
  ∃ M : Nat → Cores ι κ, M 0 = M0 ∧ ∀ n, CoreRun P (M n) [s n] (M (n + 1)) ∧
    (∀ x, (∀ i, ¬ A i x) → (M n).mem x = v n x) ∧ ∀ i, (M n).pos i = q n i

/-- Likewise for the program in memory; a thread in a snippet counts as behind it. -/
def Image.Emits (I : Image κ) (P : CoreGuest κ L) (A : ι → W → Prop) (M0 : Cores ι κ) (s : Nat → ι × L) (v : Nat → Mem)
    (q : Nat → ι → κ) : Prop :=
  ∃ N : Nat → Cores ι (Footing κ), N 0 = M0.load ∧ ∀ n, ByteFrom P I (N n) [s n] (some (N (n + 1))) ∧
    (∀ x, (∀ i, ¬ A i x) → (N n).mem x = v n x) ∧ ∀ i, ((N n).pos i).point I = q n i

/-- The original may do `tr` and then be unable to do any of `X` next. -/
def CoreGuest.Refuses (P : CoreGuest κ L) (M0 : Cores ι κ) (tr : List (ι × L)) (X : ι × L → Prop) : Prop :=
  ∃ M, CoreRun P M0 tr M ∧ ∀ e M', X e → ¬ CoreRun P M [e] M'

/-- Likewise for the program in memory. -/
def Image.Refuses (I : Image κ) (P : CoreGuest κ L) (M0 : Cores ι κ) (tr : List (ι × L)) (X : ι × L → Prop) : Prop :=
  ∃ N, ByteCores P I M0 tr (some N) ∧ ∀ e c, X e → ¬ ByteFrom P I N [e] c

/-- The program `P`, except that threads may wait at the points `S`, and say `l` whenever they do. -/
def CoreGuest.await (P : CoreGuest κ L) (S : κ → Prop) (l : L) : CoreGuest κ L where
  step k s ws l' k' c := P.step k s ws l' k' c ∨ S k ∧ ws = [] ∧ l' = l ∧ k' = k ∧ c = s.cpu
  locked := P.locked
  site := P.site

end Verif
