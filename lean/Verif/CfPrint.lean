import Verif.CallGraph

/-!
# The control flow printer (`/repo/src/cf.cc`)

A separate small program, with which the authors look at what Dyninst knows about the control flow of a function called
`foo`.  The texts are lists of characters.
-/

namespace Verif.Cf

/-- What is said about an edge. -/
inductive Note
  | unknown | plt | indirect | callFt | taken | notTaken | ret
  | call (g : Func)
  deriving DecidableEq

/-- The body of the inner loop, `/repo/src/cf.cc:55-100`; `none` when nothing is printed. -/
def noteOf (co : CodeObj) (e : Edge) : Option Note :=
  if e.sink && e.type != .ret then some .unknown
  else if (co.linkage (co.start e.trg)).isSome then some .plt
  else match e.type with
    | .indirect => some .indirect
    | .callFt => some .callFt
    | .condTaken => some .taken
    | .condNotTaken => some .notTaken
    | .call => (calleeAt co e.trg).map .call
    | .ret => some .ret
    | _ => none

/-- The texts, `/repo/src/cf.cc:56,62,67,72,77,82,91,99`, without the end of the line. -/
def Note.text (name : Func → List Char) : Note → List Char
  | .unknown => "Unknown control flow found.".toList
  | .plt => "PLT calls found.".toList
  | .indirect => "Indirect control flow found.".toList
  | .callFt => "Call fall through found.".toList
  | .taken => "Conditional taken found.".toList
  | .notTaken => "Conditional not taken found.".toList
  | .ret => "Return found.".toList
  | .call g => "Call too function ".toList ++ name g ++ " found.".toList

/-- What is said about a function, `/repo/src/cf.cc:51-102`. -/
def notes (co : CodeObj) (f : Func) : List Note :=
  (co.blocks f).flatMap fun b => (co.targets b).filterMap (noteOf co)

/-- The lines printed for a function, `/repo/src/cf.cc:50-104`. -/
def lines (co : CodeObj) (name : Func → List Char) (f : Func) : List (List Char) :=
  (notes co f).map (Note.text name) ++
    ["Number of basic blocks : ".toList ++ Nat.toDigits 10 (co.blocks f).length]

/-- What the program does. -/
inductive Result
  /-- it prints these lines and ends with status 0 -/
  | printed (l : List (List Char))
  /-- `DCHECK` fails, or in an optimised build the null pointer is used (`/repo/src/cf.cc:48,51`) -/
  | dies
  deriving DecidableEq

/-- `main`, `/repo/src/cf.cc:31-105`, for the binary which Dyninst reads as `co`.  Without an argument,
`std::string(argv[1])` throws (`/repo/src/cf.cc:36`). -/
def run (name : Func → List Char) : Option CodeObj → Result
  | none => .dies
  | some co => match co.funcs.find? fun f => name f == "foo".toList with
    | none => .dies
    | some f => .printed (lines co name f)

end Verif.Cf
