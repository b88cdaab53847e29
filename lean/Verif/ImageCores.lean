import Verif.ImageTeam
import Verif.RefineCores

/-!
# Instrumented programs with several threads in memory, on x86

As `ImageTeam`, with a store buffer for every thread as in `RefineCores`: all execute the same text, what an instruction writes
waits in the buffer of its thread, and another thread or another buffer may go on after every instruction.
-/

namespace Verif

variable {ι κ L : Type}

/-- Where the instruction at `x` writes: the addresses and numbers of bytes.  Jumps and `0x62` write nothing. -/
def storesAt (text : W → Byte) (x : W) (s : State) : List (W × Nat) :=
  match decode (window text x) with
  | some (.plain ins, _) => Wr.stores ins s
  | _ => []

/-- The program without its own steps: what `Image.Of` is about. -/
def CoreGuest.sites (P : CoreGuest κ L) : Guest κ L := ⟨fun _ _ _ _ _ => False, P.site⟩

/-- The threads before they begin. -/
def Cores.load (M : Cores ι κ) : Cores ι (Footing κ) := ⟨M.mem, M.buf, fun i => .own (M.pos i), M.cpu⟩

variable [DecidableEq ι]

/-- One step of one thread, or of its buffer; `none`: SIGILL ends the process. -/
inductive ByteMove (P : CoreGuest κ L) (I : Image κ) (N : Cores ι (Footing κ)) (i : ι) :
    List L → Option (Cores ι (Footing κ)) → Prop
  | own {k k' : κ} {l : L} {c : Cpu} {ws : List (W × Byte)} : N.pos i = .own k → ¬ P.locked k →
      P.step k (N.at_ i) ws l k' c → ByteMove P I N i [l] (some (N.put i (.own k') c ws))
  | locked {k k' : κ} {l : L} {c : Cpu} {ws : List (W × Byte)} : N.pos i = .own k → P.locked k → N.buf i = [] →
      P.step k (N.at_ i) ws l k' c → ByteMove P I N i [l] (some (N.sync i (.own k') c ws))
  /-- the thread comes to inserted bytes -/
  | enter {k k' : κ} {a : W} {n : Nat} : N.pos i = .own k → I.site k = some (a, n, k') →
      ByteMove P I N i [] (some (N.put i (.inside k a) (N.cpu i) []))
  /-- one instruction -/
  | next {k k' : κ} {a x x' : W} {n : Nat} {s' : State} {ws : List (W × Byte)} : N.pos i = .inside k x →
      I.site k = some (a, n, k') → Inside a n x → executeAt I.avx I.text x (N.at_ i) = .next x' s' →
      afterWrites (N.view i) ws = s'.mem → (∀ b ∈ ws, ∃ p ∈ storesAt I.text x (N.at_ i), InRange b.1 p.1 p.2) →
      ByteMove P I N i [] (some (N.put i (.inside k x') s'.cpu ws))
  /-- the thread comes behind the inserted bytes -/
  | leave {k k' : κ} {a : W} {n : Nat} : N.pos i = .inside k (a + BitVec.ofNat 64 n) → I.site k = some (a, n, k') →
      ByteMove P I N i [] (some (N.put i (.own k') (N.cpu i) []))
  | die {k k' : κ} {a x : W} {n : Nat} {s' : State} : N.pos i = .inside k x → I.site k = some (a, n, k') → Inside a n x →
      executeAt I.avx I.text x (N.at_ i) = .sigill s' → ByteMove P I N i [] none
  | drain {w : W × Byte} {ws : List (W × Byte)} : N.buf i = w :: ws → ByteMove P I N i [] (some (N.drain i w ws))

/-- Executions, with what the outside world sees of them; `none`: the process has been killed. -/
inductive ByteCores (P : CoreGuest κ L) (I : Image κ) (M0 : Cores ι κ) : List (ι × L) → Option (Cores ι (Footing κ)) → Prop
  | start : ByteCores P I M0 [] (some M0.load)
  | step {tr : List (ι × L)} {N : Cores ι (Footing κ)} {i : ι} {ls : List L} {c : Option (Cores ι (Footing κ))} :
      ByteCores P I M0 tr (some N) → ByteMove P I N i ls c → ByteCores P I M0 (tr ++ ls.map (Prod.mk i)) c

/-- Steps of a thread inside of a snippet, while the others and all buffers rest. -/
inductive OnlyByte (P : CoreGuest κ L) (I : Image κ) (i : ι) : Cores ι (Footing κ) → Cores ι (Footing κ) → Prop
  | refl (N : Cores ι (Footing κ)) : OnlyByte P I i N N
  | step {N N' N'' : Cores ι (Footing κ)} : ByteMove P I N i [] (some N') → N'.mem = N.mem → OnlyByte P I i N' N'' →
      OnlyByte P I i N N''

/-- The program in memory does what the original does: as `CoreGuest.Refines`. -/
structure Image.CoreRefines (I : Image κ) (P : CoreGuest κ L) (D : ι → Blind κ) (A : ι → W → Prop) (M0 : Cores ι κ) : Prop where
  forth : ∀ tr M, CoreRun P M0 tr M → ∃ N, ByteCores P I M0 tr (some N) ∧ (∀ x, (∀ i, ¬ A i x) → N.mem x = M.mem x) ∧
    ∀ i, N.pos i = .own (M.pos i) ∧ (coreBlind D A i).Same (M.pos i) (M.at_ i) (N.at_ i)
  back : ∀ tr N, ByteCores P I M0 tr (some N) → ∃ M, CoreRun P M0 tr M ∧ (∀ x, (∀ i, ¬ A i x) → N.mem x = M.mem x) ∧
    ∀ i, (N.pos i).point I = M.pos i ∧ ∀ k, N.pos i = .own k → (coreBlind D A i).Same k (M.at_ i) (N.at_ i)
  alive : ∀ tr, ¬ ByteCores P I M0 tr none
  ends : ∀ tr N i, ByteCores P I M0 tr (some N) → ∃ N', OnlyByte P I i N N' ∧ N'.pos i = .own ((N.pos i).point I)

/-- The same moment of an execution of the bytes and of one of the lists of instructions. -/
structure CoresAbreast (I : Image κ) (N : Cores ι (Footing κ)) (A : Cores ι (Stand κ)) : Prop where
  mem : N.mem = A.mem
  buf : N.buf = A.buf
  cpu : N.cpu = A.cpu
  point : ∀ i, (N.pos i).point I = (A.pos i).point
  own : ∀ i k, N.pos i = .own k ↔ A.pos i = .own k

end Verif
