import Verif.Jit
import Verif.SnippetSpec
import Verif.Cfg

/-!
# Dead registers at entries and exits (`/repo/src/passes.h:531-586`)

What Dyninst's `LivenessAnalyzer` answers is a parameter.
-/

namespace Verif

/-- `LivenessAnalyzer::Type`.  `/repo/src/passes.h:538`. -/
inductive LiveAt where
  | before | after
  deriving DecidableEq, Repr

/-- `la.query(loc, type, live)` for a function and a block: `none` if it returns false, else the
bits.  `/repo/src/passes.h:549`. -/
abbrev LiveQuery := Func → Blk → LiveAt → Option (Reg → Bool)

/-- `insert` of a `std::set<std::string>`, kept in iteration order.  `/repo/src/passes.h:566`. -/
def strInsert (l : List String) (x : String) : List String :=
  match l with
  | [] => [x]
  | y :: l => if x < y then x :: y :: l else if x = y then y :: l else y :: strInsert l x

/-- The vector `regs`, `/repo/src/passes.h:554-562`. -/
def deadCandidates : List Reg := [.rsi, .rdi, .rdx, .rcx, .r8, .r9, .r10, .r11]

/-- `GetDeadRegisters`, `/repo/src/passes.h:537-570`. -/
def getDead (live : Option (Reg → Bool)) : List String :=
  match live with
  | none => []
  | some lv => deadCandidates.foldl (fun d r => if !lv r then strInsert d r.name else d) []

/-- `m[k] = v`.  `/repo/src/passes.h:582`. -/
def deadSet (m : Nat → Option (List String)) (k : Nat) (v : List String) :
    Nat → Option (List String) :=
  fun j => if j = k then some v else m j

/-- `RunLocalAnalysis`, `/repo/src/passes.h:572-585`; `ends` gives `b->end()`. -/
def deadPass (live : LiveQuery) (f : Func) (entry : Blk) (exits : List Blk) (ends : Blk → Nat)
    (assumeUnsafe : Bool) (s : JitSummary) : JitSummary :=
  if assumeUnsafe then s
  else
    { s with
      deadAtEntry := getDead (live f entry .before)
      deadAtExit := exits.foldl (fun m b => deadSet m (ends b) (getDead (live f b .after)))
        s.deadAtExit }

end Verif
