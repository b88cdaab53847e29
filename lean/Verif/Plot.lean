import Verif.Strings

/-!
# The plots (`/repo/script/plot.py`)

What happens between the result files and the drawing: the rows taken from a file, the
overheads and the order of the benchmarks.  Floating point numbers are rationals here; parsing
of the rows by the `csv` module and the drawing are not modelled.
-/

namespace Verif

/-! ## The rows of a result file -/

/-- `extract_data_csv`, `/repo/script/plot.py:51-61`: the loop over the rows, with `in_data`. -/
def plotRows : List (List Char) → Bool → List (List Char)
  | [], _ => []
  | row :: rows, inData =>
    if (strFind row "Full Results Table".toList).isSome then plotRows rows true
    else if (strFind row "Selected Results Table".toList).isSome then []
    else if inData ∧ ¬ (row = [] ∨ row = ['\n']) then row :: plotRows rows inData
    else plotRows rows inData

/-! ## Overheads -/

/-- The list of overheads in `_overhead`, `/repo/script/plot.py:91`: per cent of the base; `none`
is a division by zero. -/
def plotOverheads : List (Rat × Rat) → Option (List Rat)
  | [] => some []
  | (base, peak) :: l =>
    if base = 0 then none else (plotOverheads l).map fun r => (peak - base) * 100 / base :: r

/-- Python's `min`; `none` is the exception for an empty list.  `/repo/script/plot.py:92`. -/
def pyMin : List Rat → Option Rat
  | [] => none
  | x :: l => some (l.foldl (fun m y => if y < m then y else m) x)

/-- Python's `max`.  `/repo/script/plot.py:92`. -/
def pyMax : List Rat → Option Rat
  | [] => none
  | x :: l => some (l.foldl (fun m y => if m < y then y else m) x)

/-- Insertion into a sorted list.  `/repo/script/plot.py:92`. -/
def pyInsert (x : Rat) : List Rat → List Rat
  | [] => [x]
  | y :: l => if x ≤ y then x :: y :: l else y :: pyInsert x l

/-- Python's `sorted`.  `/repo/script/plot.py:92`. -/
def pySorted : List Rat → List Rat
  | [] => []
  | x :: l => pyInsert x (pySorted l)

/-- `statistics.median`.  `/repo/script/plot.py:92`. -/
def pyMedian (l : List Rat) : Option Rat :=
  let s := pySorted l
  if s.length % 2 = 1 then s[s.length / 2]?
  else do
    let a ← s[s.length / 2 - 1]?
    let b ← s[s.length / 2]?
    return (a + b) / 2

/-- `_overhead`, `/repo/script/plot.py:90-92`. -/
def plotStats (base peak : List Rat) : Option (Rat × Rat × Rat) := do
  let l ← plotOverheads (base.zip peak)
  let a ← pyMin l
  let b ← pyMedian l
  let c ← pyMax l
  return (a, b, c)

/-- The bar and its two errors, `/repo/script/plot.py:144-147`. -/
def plotBar (s : Rat × Rat × Rat) : Rat × Rat × Rat := (s.2.1, s.2.1 - s.1, s.2.2 - s.2.1)

/-! ## The order of the benchmarks -/

/-- One benchmark with its overheads, `BenchRawResult`, `/repo/script/plot.py:11-21`. -/
structure PlotBench where
  name : String
  stats : Rat × Rat × Rat

/-- The `for` loop of `sort_benchs_by_order`, `/repo/script/plot.py:117-123`; `n` is the number of
benchmarks. -/
def sortPass (order : List String) (n : Nat) :
    List PlotBench → Nat → List PlotBench → Nat × List PlotBench
  | [], ptr, acc => (ptr, acc)
  | b :: bs, ptr, acc =>
    if order[ptr]? = some b.name then
      if ptr + 1 = n then (ptr + 1, acc ++ [b]) else sortPass order n bs (ptr + 1) (acc ++ [b])
    else sortPass order n bs ptr acc

/-- The `while` loop ends with a result, `/repo/script/plot.py:116-124`. -/
inductive SortEnds (benchs : List PlotBench) (order : List String) :
    Nat → List PlotBench → List PlotBench → Prop
  | stop {ptr acc} : ¬ ptr < benchs.length → SortEnds benchs order ptr acc acc
  | more {ptr acc p r} : ptr < benchs.length → sortPass order benchs.length benchs ptr acc = p →
      SortEnds benchs order p.1 p.2 r → SortEnds benchs order ptr acc r

/-- `sort_benchs_by_order`, `/repo/script/plot.py:111-124`, returns `r`. -/
def SortsTo (benchs : List PlotBench) (order : List String) (r : List PlotBench) : Prop :=
  benchs.length = order.length ∧ SortEnds benchs order 0 [] r

end Verif
