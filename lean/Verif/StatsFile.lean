import Verif.Plan
import Verif.DeadPass

/-!
# The statistics file and the result of a pass (`/repo/src/pass_manager.h:341-439`)
-/

namespace Verif

/-- `stats << n` of a number.  `/repo/src/pass_manager.h:434`. -/
def decDigits (n : Nat) : List Char :=
  if n < 10 then [Nat.digitChar n] else decDigits (n / 10) ++ [Nat.digitChar (n % 10)]
termination_by n

/-- `stats << n` of a `long`.  `/repo/src/pass_manager.h:434`. -/
def decInt : Int → List Char
  | .ofNat n => decDigits n
  | .negSucc n => '-' :: decDigits (n + 1)

/-- `safe_fns`, `/repo/src/pass_manager.h:411-418`: the names of the safe functions in the order
of iteration over `summaries_`. -/
def safeFnSet (names : List String) : List String := names.foldl strInsert []

/-- What is written to the file, `/repo/src/pass_manager.h:420-439`; `total` is
`co->funcs().size()`. -/
def statsText (total : Nat) (names : List String) (elapsed : Int) : List Char :=
  let fns := safeFnSet names
  decInt fns.length ++ ',' :: decInt ((total : Int) - fns.length) ++ '\n' :: '\n' ::
    (fns.flatMap (fun f => f.toList ++ ['\n']) ++
      "\nelapsed (seconds) : ".toList ++ decInt elapsed)

/-- The analysis of a code object, as far as the file is concerned.
`/repo/src/pass_manager.h:407-420`. -/
structure ObjStats where
  total : Nat
  safe : List String
  elapsed : Int
  deriving Repr

/-- The file after `Instrument`: every analysed object opens it anew and truncates it
(`/repo/src/pass_manager.h:420-439`, `/repo/src/instrument.cc:955-985` and `1034-1043`). -/
def statsFile (fl : InstrFlags) (stats : String) (an : BObject → ObjStats) (objs : List BObject)
    (file : Option (List Char)) : Option (List Char) :=
  objs.foldl (fun file o =>
    if !fl.libs && isSharedLibrary o.path then file
    else if fl.threatModel = "trust_system" ∧ isSystemCode o.path = true then file
    else if fl.shadowStack = "light" then
      if stats ≠ "" then some (statsText (an o).total (an o).safe (an o).elapsed) else file
    else file) file

/-- `pr->data["Safe Functions"] = count`, `/repo/src/pass_manager.h:361-369`: the assignment
of a `long` to a `std::string` takes it for a character.  The bytes of the string. -/
def passDatum (safe : List Bool) : List Nat := [safe.countP id % 256]

end Verif
