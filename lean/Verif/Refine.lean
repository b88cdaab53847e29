import Verif.BlockSpec
import Verif.Threads

/-!
# Specification: a program and its instrumented version

A program is a set of control points with steps between them; a step has a label, which is
whatever the outside world sees of it.  At some control points the rewriter inserts a snippet.  The
original passes such a control point without doing anything, the instrumented program executes the
snippet.  Nothing here refers to the analyses or to the way the places were chosen.
-/

namespace Verif

/-- An inserted snippet: a push onto the shadow stack or a check, which take the return address
from `rsp + d`, use `n` bytes below the stack pointer and may clobber `free`; a push into a frame
register or a check of one. -/
inductive Site
  | push (c : Code) (d : Int) (n : Nat) (free : Reg → Prop)
  | check (c : Code) (d : Int) (n : Nat) (free : Reg → Prop)
  | save (c : Code) (r : Reg) (d : Int)
  | compare (c : Code) (r : Reg)

/-- The code. -/
def Site.code : Site → Code
  | .push c .. | .check c .. | .save c .. | .compare c .. => c

/-- It is what the emitter returns. -/
def Site.Emitted : Site → Prop
  | .push c d n free => IsPush c d n free
  | .check c d n free => IsCheck c d n free
  | .save c r d => IsRegPush c r d
  | .compare c r => IsRegPop c r

/-- Where the return address is. -/
def Site.word : Site → State → W
  | .push _ d .. , s | .check _ d .., s | .save _ _ d, s => s.retAddr d
  | .compare .., s => s.regs .rsp

/-- The program: its steps, and the inserted code with the control points behind it. -/
structure Guest (κ L : Type) where
  step : κ → State → L → κ → State → Prop
  site : κ → Option (Code × κ)

variable {κ L : Type}

/-- One step of the original. -/
inductive Bare (P : Guest κ L) : κ → State → List L → κ → State → Prop
  | own {k k' : κ} {s s' : State} {l : L} : P.step k s l k' s' → Bare P k s [l] k' s'
  | pass {k k' : κ} {s : State} {c : Code} : P.site k = some (c, k') → Bare P k s [] k' s

/-- The instrumented program in execution, or killed by SIGILL. -/
inductive Inst (κ : Type)
  | run (k : κ) (s : State)
  | killed

/-- One step of the instrumented program.  Snippets are taken as one step. -/
inductive Armed (P : Guest κ L) : Inst κ → List L → Inst κ → Prop
  | own {k k' : κ} {s s' : State} {l : L} : P.step k s l k' s' → Armed P (.run k s) [l] (.run k' s')
  | snip {k k' : κ} {s s' : State} {c : Code} : P.site k = some (c, k') → Exits c s s' →
      Armed P (.run k s) [] (.run k' s')
  | trap {k k' : κ} {s : State} {c : Code} : P.site k = some (c, k') → Traps c s →
      Armed P (.run k s) [] .killed

/-- Executions of the original, with what the outside world sees of them. -/
inductive BareRun (P : Guest κ L) (k0 : κ) (s0 : State) : List L → κ → State → Prop
  | start : BareRun P k0 s0 [] k0 s0
  | step {tr ls : List L} {k k' : κ} {s s' : State} : BareRun P k0 s0 tr k s →
      Bare P k s ls k' s' → BareRun P k0 s0 (tr ++ ls) k' s'

/-- Executions of the instrumented program. -/
inductive ArmedRun (P : Guest κ L) (k0 : κ) (s0 : State) : List L → Inst κ → Prop
  | start : ArmedRun P k0 s0 [] (.run k0 s0)
  | step {tr ls : List L} {c c' : Inst κ} : ArmedRun P k0 s0 tr c → Armed P c ls c' →
      ArmedRun P k0 s0 (tr ++ ls) c'

/-! ## What the program looks at -/

/-- What the program does not look at before it has written it, by control point: registers, the
flags, bytes of memory (given the stack pointer), and a register which it neither reads nor
writes. -/
structure Blind (κ : Type) where
  regs : κ → Reg → Prop
  flags : κ → Prop
  mem : κ → W → W → Prop
  frame : κ → Option Reg

/-- A register whose value does not matter. -/
def Blind.hides (D : Blind κ) (k : κ) (r : Reg) : Prop := D.regs k r ∨ D.frame k = some r

/-- States which the program cannot tell apart. -/
def Blind.Same (D : Blind κ) (k : κ) (s t : State) : Prop :=
  Near (D.hides k) (D.flags k) (D.mem k (s.regs .rsp)) s t

/-- The program is as `D` says, and leaves the shadow region at `g` alone, in the states which the
original reaches and in those which it cannot tell from them. -/
structure Guest.Respects (P : Guest κ L) (D : Blind κ) (g : W) (k0 : κ) (s0 : State) : Prop where
  rsp : ∀ k, ¬ D.hides k .rsp
  region : ∀ k sp x, InRange x g regionSize → D.mem k sp x
  spares : ∀ tr k s t l k' t', BareRun P k0 s0 tr k s → D.Same k s t → P.step k t l k' t' →
    t'.gs = t.gs ∧ (∀ x, InRange x g regionSize → t'.mem x = t.mem x) ∧
    (∀ r, D.frame k = some r → t'.regs r = t.regs r) ∧ D.frame k' = D.frame k
  forth : ∀ tr k s t l k' s', BareRun P k0 s0 tr k s → D.Same k s t → P.step k s l k' s' →
    ∃ t', P.step k t l k' t' ∧ D.Same k' s' t'
  back : ∀ tr k s t l k' t', BareRun P k0 s0 tr k s → D.Same k s t → P.step k t l k' t' →
    ∃ s', P.step k s l k' s' ∧ D.Same k' s' t'

/-! ## What the snippets ask of the program -/

/-- The bytes below the stack pointer which the snippet uses. -/
def Site.below : Site → Nat
  | .push _ _ n _ | .check _ _ n _ => n
  | .save .. | .compare .. => 0

/-- The registers it may clobber. -/
def Site.free : Site → Reg → Prop
  | .push _ _ _ free, r | .check _ _ _ free, r => free r
  | .save .., _ | .compare .., _ => False

/-- Is it a check? -/
def Site.checks : Site → Prop
  | .check .. | .compare .. => True
  | .push .. | .save .. => False

/-- What the snippet does to the frame register. -/
def Site.frames (D : Blind κ) (k k' : κ) : Site → Prop
  | .push _ _ _ free | .check _ _ _ free =>
    D.frame k' = D.frame k ∧ ∀ r, D.frame k = some r → ¬ free r
  | .save _ r _ => D.frame k = none ∧ ¬ D.regs k r ∧ D.frame k' = some r
  | .compare _ r => D.frame k = some r ∧ D.frame k' = none

/-- In the state `s` the snippet between `k` and `k'` is at a proper place: it is emitted code, the
stack is outside the shadow region, and it destroys only what the program does not look at. -/
structure Site.Fits (D : Blind κ) (g : W) (k k' : κ) (x : Site) (s : State) : Prop where
  emitted : x.Emitted
  apart : Apart g (x.word s) x.below s
  visible : ∀ a, InRange a (x.word s) 8 → ¬ D.mem k (s.regs .rsp) a
  mem : ∀ a, D.mem k (s.regs .rsp) a ∨ InRange a (s.regs .rsp - BitVec.ofNat 64 x.below) x.below →
    D.mem k' (s.regs .rsp) a
  regs : ∀ r, D.regs k r ∨ x.free r → D.regs k' r
  flags : D.flags k ∨ x.checks → D.flags k'
  frames : x.frames D k k'

/-- Return addresses which the program has announced by passing pushes and not yet by passing
checks, innermost first, and that of a function with a frame register. -/
structure Book where
  pend : List W := []
  leaf : Option W := none

/-- How passing a snippet in state `s` changes the book: a push announces what is at the word, a
check takes back the latest announcement of it (with those which came later, which have been
abandoned). -/
inductive Site.Keeps (s : State) : Site → Book → Book → Prop
  | push {c d n free} {b : Book} : 32 + 8 * b.pend.length + 8 ≤ regionSize →
      Site.Keeps s (.push c d n free) b { b with pend := s.mem.read64 (s.retAddr d) :: b.pend }
  | check {c d n free} {b : Book} {post : List W} : Finds (s.mem.read64 (s.retAddr d)) b.pend post →
      Site.Keeps s (.check c d n free) b { b with pend := post }
  | save {c r d} {p : List W} :
      Site.Keeps s (.save c r d) ⟨p, none⟩ ⟨p, some (s.mem.read64 (s.retAddr d))⟩
  | compare {c r} {p : List W} :
      Site.Keeps s (.compare c r) ⟨p, some (s.mem.read64 (s.regs .rsp))⟩ ⟨p, none⟩

/-- The book can be kept: `Q` says what it may be.  Wherever the original gets, its own steps do not
change the book, the snippets are at proper places, and what a check looks at has been announced. -/
structure Guest.Accounts (P : Guest κ L) (D : Blind κ) (g : W) (k0 : κ) (s0 : State)
    (Q : Book → κ → State → Prop) : Prop where
  start : Q {} k0 s0
  own : ∀ tr b k s l k' s', BareRun P k0 s0 tr k s → Q b k s → P.step k s l k' s' → Q b k' s'
  pass : ∀ tr b k s c k', BareRun P k0 s0 tr k s → Q b k s → P.site k = some (c, k') →
    ∃ (x : Site) (b' : Book), x.code = c ∧ x.Fits D g k k' s ∧ x.Keeps s b b' ∧ Q b' k' s

/-- The program returns to where it was called from. -/
def Guest.Honest (P : Guest κ L) (D : Blind κ) (g : W) (k0 : κ) (s0 : State) : Prop :=
  ∃ Q, P.Accounts D g k0 s0 Q

/-- The two programs do the same: whatever the outside world can see of one it can see of the other,
and the snippets do not kill it. -/
structure Guest.Refines (P : Guest κ L) (D : Blind κ) (k0 : κ) (s0 : State) : Prop where
  forth : ∀ tr k s, BareRun P k0 s0 tr k s → ∃ t, ArmedRun P k0 s0 tr (.run k t) ∧ D.Same k s t
  back : ∀ tr k t, ArmedRun P k0 s0 tr (.run k t) → ∃ s, BareRun P k0 s0 tr k s ∧ D.Same k s t
  alive : ∀ tr, ¬ ArmedRun P k0 s0 tr .killed
  /-- the one can go on where the other can -/
  live : ∀ tr k s t, BareRun P k0 s0 tr k s → ArmedRun P k0 s0 tr (.run k t) → D.Same k s t →
    ∀ ls k', (∃ s', Bare P k s ls k' s') ↔ ∃ t', Armed P (.run k t) ls (.run k' t')

end Verif
