import Verif.Strings

/-!
# Running benchmarks (`/repo/script/run_spec.py`)

The script and the processes it has started, interleaved.  A process is the sequence of
characters it writes; it waits if the pipe it writes to is full and ends behind the last.
-/

namespace Verif

/-- `(mode, column, bench)`, the key of `results`.  `/repo/script/run_spec.py:93`. -/
structure BenchKey where
  mode : String
  column : String
  bench : String
  deriving DecidableEq, Repr

/-- An element of `configs`, without the module to load.  `/repo/script/run_spec.py:74`. -/
structure BenchJob where
  mode : String
  column : String
  config : String
  bench : String
  deriving DecidableEq, Repr

/-- The key under which the result is stored, `/repo/script/run_spec.py:90-93`. -/
def BenchJob.key (j : BenchJob) : BenchKey := ⟨j.mode, j.column, j.bench⟩

/-- `GenerateTestConfigurations`, `/repo/script/run_spec.py:69-75`. -/
def genConfigs (modes : List String) (configs : List (String × String)) (tests : List String) :
    List BenchJob :=
  modes.flatMap fun m => configs.flatMap fun c => tests.map fun t => ⟨m, c.1, c.2, t⟩

/-- `ret`.  `/repo/script/run_spec.py:84-89`. -/
inductive Verdict where
  | fail | pass | unknown
  deriving DecidableEq, Repr

/-- `Failed`, `Passed` and the choice, `/repo/script/run_spec.py:42-50` and `84-89`. -/
def verdict (out : List Char) : Verdict :=
  if (strFind out "Error".toList).isSome then .fail
  else if (strFind out "Success:".toList).isSome then .pass
  else .unknown

/-- A process: what it has still to write (`true` for standard error), and the contents of its
pipes.  `/repo/script/run_spec.py:57,83`. -/
structure BenchProc where
  left : List (Bool × Char)
  out : List Char
  err : List Char
  deriving DecidableEq, Repr

/-- A process writes one character into a pipe of capacity `cap` that is not full.
`/repo/script/run_spec.py:57`. -/
inductive ProcStep (cap : Nat) : BenchProc → BenchProc → Prop
  | out {c l o e} : o.length < cap → ProcStep cap ⟨(false, c) :: l, o, e⟩ ⟨l, o ++ [c], e⟩
  | err {c l o e} : e.length < cap → ProcStep cap ⟨(true, c) :: l, o, e⟩ ⟨l, o, e ++ [c]⟩

/-- The state of the script: configurations not yet started, `runs`, `results` (the last
assignment first), and whether it is in `WaitForFinish`.  `/repo/script/run_spec.py:122-132`. -/
structure BenchState where
  todo : List BenchJob
  runs : List (BenchJob × BenchProc)
  results : List (BenchKey × Verdict)
  waiting : Bool

/-- The steps.  `output` is what each process writes.  Rounds of `WaitForFinish` which find no
process finished change nothing and are not steps; as processes run on during a round, it may find
any one that has finished.  `/repo/script/run_spec.py:77-99,126-132`. -/
inductive BenchStep (cap par : Nat) (output : BenchJob → List (Bool × Char)) :
    BenchState → BenchState → Prop
  /-- A process writes. -/
  | work {todo a j p p' b res w} : ProcStep cap p p' →
      BenchStep cap par output ⟨todo, a ++ (j, p) :: b, res, w⟩ ⟨todo, a ++ (j, p') :: b, res, w⟩
  /-- `/repo/script/run_spec.py:126-129` -/
  | start {j todo runs res} :
      BenchStep cap par output ⟨j :: todo, runs, res, false⟩
        ⟨todo, runs ++ [(j, ⟨output j, [], []⟩)], res, decide (runs.length + 1 = par)⟩
  /-- `/repo/script/run_spec.py:131-132` -/
  | drain {runs res} : runs ≠ [] →
      BenchStep cap par output ⟨[], runs, res, false⟩ ⟨[], runs, res, true⟩
  /-- `WaitForFinish`, `/repo/script/run_spec.py:77-99` -/
  | reap {todo a j p b res} : p.left = [] →
      BenchStep cap par output ⟨todo, a ++ (j, p) :: b, res, true⟩
        ⟨todo, a ++ b, (j.key, verdict (p.out ++ p.err)) :: res, false⟩

/-- `results[key]`, `none` for a `KeyError`.  `/repo/script/run_spec.py:116`. -/
def BenchState.result (s : BenchState) (k : BenchKey) : Option Verdict :=
  (s.results.find? (·.1 = k)).map Prod.snd

/-- The start.  `/repo/script/run_spec.py:122-125`. -/
def BenchState.init (jobs : List BenchJob) : BenchState := ⟨jobs, [], [], false⟩

/-- The loops have ended.  `/repo/script/run_spec.py:126-132`. -/
def BenchState.Done (s : BenchState) : Prop := s.todo = [] ∧ s.runs = [] ∧ s.waiting = false

end Verif
