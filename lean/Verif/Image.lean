import Verif.MachineCode
import Verif.Refine

/-!
# Instrumented programs in memory

`Refine` takes a snippet as one step of the list of instructions which asmjit was asked for.  Here the
processor executes the bytes which stand in the text of the instrumented program, one instruction at a
time.  The program's own steps are those of `Guest`, as before; they do not change the text.
-/

namespace Verif

/-- The text of an instrumented program, and where the snippets stand in it: the address, the number of
bytes, and the point of the program behind them.  `avx`: the processor has AVX-512, see `Evex`.
Dyninst puts there what `generate` returns, `/repo/src/instrument.cc:93-108`. -/
structure Image (κ : Type) where
  avx : Bool
  text : W → Byte
  site : κ → Option (W × Nat × κ)

/-- What the program is doing: it is at a point of its own, or `rip` is `x`, in the bytes inserted at `k`,
or it has been killed by SIGILL. -/
inductive Doing (κ : Type)
  | own (k : κ) (s : State)
  | inside (k : κ) (x : W) (s : State)
  | killed

variable {κ L : Type}

/-- One step of the processor. -/
inductive Tick (P : Guest κ L) (I : Image κ) : Doing κ → List L → Doing κ → Prop
  | own {k k' : κ} {s s' : State} {l : L} : P.step k s l k' s' → Tick P I (.own k s) [l] (.own k' s')
  /-- the program comes to inserted bytes -/
  | enter {k k' : κ} {s : State} {a : W} {n : Nat} : I.site k = some (a, n, k') →
      Tick P I (.own k s) [] (.inside k a s)
  /-- one instruction -/
  | next {k k' : κ} {s s' : State} {a x x' : W} {n : Nat} : I.site k = some (a, n, k') → Inside a n x →
      executeAt I.avx I.text x s = .next x' s' → Tick P I (.inside k x s) [] (.inside k x' s')
  /-- the program comes behind the inserted bytes -/
  | leave {k k' : κ} {s : State} {a : W} {n : Nat} : I.site k = some (a, n, k') →
      Tick P I (.inside k (a + BitVec.ofNat 64 n) s) [] (.own k' s)
  | die {k k' : κ} {s s' : State} {a x : W} {n : Nat} : I.site k = some (a, n, k') → Inside a n x →
      executeAt I.avx I.text x s = .sigill s' → Tick P I (.inside k x s) [] .killed

/-- Executions, with what the outside world sees of them. -/
inductive Ticks (P : Guest κ L) (I : Image κ) (d0 : Doing κ) : List L → Doing κ → Prop
  | start : Ticks P I d0 [] d0
  | step {tr ls : List L} {d d' : Doing κ} : Ticks P I d0 tr d → Tick P I d ls d' → Ticks P I d0 (tr ++ ls) d'

/-- The bytes of the snippets stand where the image says. -/
structure Image.Of (I : Image κ) (P : Guest κ L) : Prop where
  none : ∀ k, P.site k = none → I.site k = none
  some : ∀ k c k', P.site k = some (c, k') → ∃ a bs, generate a c = some bs ∧ Stands I.text a bs ∧
    bs.length < 2 ^ 64 ∧ I.site k = some (a, bs.length, k')

/-- The byte `0x62` in the snippets does not begin an instruction of AVX-512, see C93. -/
def Image.Undefined (I : Image κ) (P : Guest κ L) : Prop :=
  ∀ k c k' a n k'', P.site k = some (c, k') → I.site k = some (a, n, k'') → I.avx = true → .illegal ∈ c →
    atByte c (fun i => I.text (a + BitVec.ofNat 64 n + BitVec.ofNat 64 i)) = some .undefined

/-- The program in memory does what the original does: as `Guest.Refines`, and a snippet which has begun
comes to its end. -/
structure Image.Refines (I : Image κ) (P : Guest κ L) (D : Blind κ) (k0 : κ) (s0 : State) : Prop where
  forth : ∀ tr k s, BareRun P k0 s0 tr k s → ∃ t, Ticks P I (.own k0 s0) tr (.own k t) ∧ D.Same k s t
  back : ∀ tr k t, Ticks P I (.own k0 s0) tr (.own k t) → ∃ s, BareRun P k0 s0 tr k s ∧ D.Same k s t
  alive : ∀ tr, ¬ Ticks P I (.own k0 s0) tr .killed
  ends : ∀ tr k x t, Ticks P I (.own k0 s0) tr (.inside k x t) → ∃ c k' t',
    P.site k = Option.some (c, k') ∧ Ticks P I (.inside k x t) [] (.own k' t')
  /-- the one can go on where the other can -/
  live : ∀ tr k s t, BareRun P k0 s0 tr k s → Ticks P I (.own k0 s0) tr (.own k t) → D.Same k s t →
    (∀ l k', (∃ s', P.step k s l k' s') ↔ ∃ t', Tick P I (.own k t) [l] (.own k' t')) ∧
    ((∃ y, P.site k = Option.some y) ↔ ∃ x, Tick P I (.own k t) [] (.inside k x t))

end Verif
