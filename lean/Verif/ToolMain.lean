import Verif.Jit
import Verif.Report
import Verif.SkipList

/-!
# The program `cfi`: from the command line to the end of the run

`/repo/src/cfi.cc:10-87`, `InitParser` (`/repo/src/parse.cc:6-26`) and `Instrument`
(`/repo/src/instrument.cc:1008-1049`).

What gflags makes of the command line is taken as given: the values of the flags and the arguments
that are not flags.  That gflags ends the process with status 1 if a validator refuses a value is
taken from its documentation.
-/

namespace Verif

/-- The flags (`/repo/src/cfi.cc:10-59`).  `vv` and `stats` only decide what is printed or logged
(for `stats` see `StatsFile.lean`); `disable_inline` only decides about hints for Dyninst
(`AddInlineHint`, `/repo/src/instrument.cc:567-573`). -/
structure ToolFlags where
  instr : InstrFlags := {}
  jit : JitFlags := {}
  output : String := ""
  skipList : String := ""

/-- What the tool finds on the machine it runs on.  `/repo/src/cfi.cc:73-87`. -/
structure Host where
  /-- `openBinary` with the libraries the file is linked with, and `getObjects` of its image; `none` if
  `openBinary` returns a null pointer -/
  opens : String → Option (List BObject)
  /-- the files which can be read -/
  file : String → Option (List Char)
  /-- does `writeFile` succeed? -/
  canWrite : String → Bool

/-- How a run of the tool ends.  `/repo/src/cfi.cc:73-87`. -/
inductive Ended where
  /-- gflags ends it with status 1 -/
  | refused
  /-- an assertion fails or the behaviour is undefined -/
  | broken
  /-- `main` returns 0; `written` is the file that was written, if any -/
  | zero (treated : List (BFunc × Plan)) (st : Stats) (written : Option String)

/-- `ValidateShadowStackFlag`, `/repo/src/cfi.cc:62-69`. -/
def validShadowStack (value : String) : Bool := value == "light" || value == "full"

/-- `skip_addrs` after `/repo/src/instrument.cc:1017-1022`; a file which cannot be opened reads as an
empty one. -/
def skipsOf (h : Host) (name : String) : List Nat :=
  if name = "" then [] else readSkips ((h.file name).getD [])

/-- `main`, `/repo/src/cfi.cc:73-87`, with `InitParser` and `Instrument`.  `args` are `argv[1]` and those
behind it after the flags have been removed; without any, `argv[1]` is a null pointer and is made a
`std::string`.  `InitParser` calls `app->getImage()` whatever `openBinary` returned.  The result of
`writeFile` is not looked at. -/
def toolMain (h : Host) (fl : ToolFlags) (args : List String) : Ended :=
  if !validShadowStack fl.instr.shadowStack then .refused
  else match args with
    | [] => .broken
    | binary :: _ =>
      match h.opens binary with
      | none => .broken
      | some objs =>
        match instrument fl.instr (skipsOf h fl.skipList) objs with
        | none => .broken
        | some (l, st) =>
          let name := outputName fl.output binary
          .zero l st (if h.canWrite name then some name else none)

end Verif
