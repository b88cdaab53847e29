import Verif.Plan

/-!
# The list of functions with a stack protector (`/repo/src/stack_protector.cc`)
-/

namespace Verif

/-- An instruction: the formatted registers of its read and write sets, and (for the
specification only) whether it accesses the stack cookie at `%fs:0x28`. -/
structure PInsn where
  reads : List String
  writes : List String
  cookie : Bool
  deriving Repr

/-- A function: its blocks, the first being `entry()`.  `/repo/src/stack_protector.cc:64-71`. -/
structure PFunc where
  name : String
  entry : List PInsn
  others : List (List PInsn)
  deriving Repr

/-- An object: its path and `code_object->funcs()`.  `/repo/src/stack_protector.cc:57-71`. -/
structure PObject where
  path : String
  funcs : List PFunc

/-- `IsStackCookieAccessed`, `/repo/src/stack_protector.cc:23-48`. -/
def cookieAccessed (block : List PInsn) : Bool :=
  match block with
  | [] => false
  | i :: rest =>
    if i.reads.any (· = "FS") then true
    else if i.writes.any (· = "FS") then true
    else cookieAccessed rest

/-- `DiscoverStackProtectedFunctions`, `/repo/src/stack_protector.cc:50-84`: the lines of the
file and `total_functions`. -/
def discover (objs : List PObject) : List String × Nat :=
  objs.foldl (fun r o =>
    if isSharedLibrary o.path then r
    else o.funcs.foldl (fun r f =>
      (if cookieAccessed f.entry then r.1 ++ [f.name] else r.1, r.2 + 1)) r) ([], 0)

end Verif
