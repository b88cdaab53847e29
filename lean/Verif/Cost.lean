import Verif.Threads

/-!
# How many instructions a snippet executes

What the snippets of `/repo/src/jit.cc:145-487` cost while the program runs, counted in instructions.  The
loop of `ValidateRa` (`/repo/src/jit.cc:233-278`) looks at the recorded addresses one by one, so a single
check may be long; the specification of what a whole run costs is `Spent` with `price`.
-/

namespace Verif

/-- A label (`a->bind`, `/repo/src/jit.cc:260,272,277,479`) is not an instruction; everything else which
`/repo/src/jit.cc` hands to the assembler is one instruction. -/
def ticks : Instr → Nat
  | .bind _ => 0
  | _ => 1

/-- Snippet `w`, with `k` still to come in state `s`, gets to `k'` in state `s'` by executing `m`
instructions. -/
inductive Took (w : Code) : Nat → Code → State → Code → State → Prop
  | refl {k s} : Took w 0 k s k s
  | step {i k s k1 s1 k2 s2 m} : Go w (i :: k) s k1 s1 → Took w m k1 s1 k2 s2 →
      Took w (ticks i + m) (i :: k) s k2 s2

/-- The snippet falls through after `m` instructions. -/
def ExitsIn (w : Code) (m : Nat) (s s' : State) : Prop := Took w m w s [] s'

/-- After `m` instructions the snippet is at the illegal one (`/repo/src/jit.cc:272-276`). -/
def TrapsIn (w : Code) (m : Nat) (s : State) : Prop := ∃ k s', Took w m w s (.illegal :: k) s'

/-- A thread whose area is at `g` goes from `s` to `s'`: the program does what it likes but for the area,
and runs snippets, which ask for the listed things (latest first) and execute `m` instructions altogether. -/
inductive Spent (g : W) (s : State) : List ShEv → Nat → State → Prop
  | refl : Spent g s [] 0 s
  | prog {h m s1 s2} : Spent g s h m s1 → s2.gs = s1.gs →
      (∀ x, InRange x g regionSize → s2.mem x = s1.mem x) → Spent g s h m s2
  | snip {h m s1 s2 w ev R n t} : Spent g s h m s1 → Starts g s1 w ev R n → ExitsIn w t s1 s2 →
      Spent g s (ev :: h) (m + t) s2

/-- What is paid for a snippet, whatever it finds. -/
def price : ShEv → Nat
  | .push _ => 17
  | .check _ => 2
  | .enter => 2
  | .leave _ _ => 5

/-- What is paid for all. -/
def bill (h : List ShEv) : Nat := (h.map price).sum

end Verif
