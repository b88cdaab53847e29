import Verif.Runtime

/-!
# Compiling the generated initialiser (`/repo/src/codegen.cc`)

`Codegen` writes C code to a directory in `/tmp` and has `gcc` compile what it finds there.  No other
file calls it.  Other users, and other runs of the tool, do something between any two of its system
calls.

Simplified: one directory, `/tmp/.litecfi_tmp`, in which there are regular files; of its permissions,
only those to write.  A file which has been opened is afterwards known by its name, and
permissions count when it is written to.  What is called
`gcc` and what the generated code includes are taken for granted, and nobody else writes to the
directory in which the library is put.  Users are not `root`.
-/

namespace Verif.Codegen

/-- The lines which `MemRegionInit` always begins with.  `/repo/src/codegen.cc:16-23`. -/
def includes : String :=
  "#include <asm/prctl.h>\n" ++
  "#include <stdint.h>\n" ++
  "#include <stdlib.h>\n" ++
  "#include <sys/prctl.h>\n" ++
  "#include <sys/syscall.h>\n" ++
  "#include <sys/types.h>\n" ++
  "#include <unistd.h>\n"

/-- `MemRegionInit`: the code which sets up a shadow stack.  What it does when it is executed is in `Runtime`
(`initGenerated`).  `/repo/src/codegen.cc:15-57`. -/
def memRegionInit (validateFrame : Bool) : String :=
  includes ++
  "void litecfi_init_mem_region() {\n" ++
  "  unsigned long addr = (unsigned long)malloc(1024);\n" ++
  "  if (syscall(SYS_arch_prctl, ARCH_SET_GS, addr) < 0)\n" ++
  "    abort();\n" ++
  "  addr += 8;\n" ++
  "  *((unsigned long*)addr) = 0;\n" ++
  "  addr += 8;\n" ++
  (if validateFrame then
    "  *((unsigned long*)addr) = 0;\n" ++
    "  addr += 8;\n" else "") ++
  "  asm volatile(\"mov %0, %%gs:0;\" : : \"a\"(addr) :);\n" ++
  "}\n"

/-- The statements of the function.  `/repo/src/codegen.cc:39-54`. -/
inductive Stmt
  | alloc (size : Nat)
  | setGs
  | next
  | zero
  | store

/-- Their text.  `/repo/src/codegen.cc:41-54`. -/
def Stmt.text : Stmt → String
  | .alloc size => "  unsigned long addr = (unsigned long)malloc(" ++ toString size ++ ");\n"
  | .setGs => "  if (syscall(SYS_arch_prctl, ARCH_SET_GS, addr) < 0)\n    abort();\n"
  | .next => "  addr += 8;\n"
  | .zero => "  *((unsigned long*)addr) = 0;\n"
  | .store => "  asm volatile(\"mov %0, %%gs:0;\" : : \"a\"(addr) :);\n"

/-- What they do to `addr` and the machine, if `malloc` returns `block`; `none` if the process is aborted.
`/repo/src/codegen.cc:41-54`. -/
def Stmt.run (block : W) (prctlOk : Bool) (p : W × State) : Stmt → Option (W × State)
  | .alloc _ => some (block, p.2)
  | .setGs => if prctlOk then some (p.1, { p.2 with gs := p.1 }) else none
  | .next => some (p.1 + 8, p.2)
  | .zero => some (p.1, { p.2 with mem := p.2.mem.write64 p.1 0 })
  | .store => some (p.1, { p.2 with mem := p.2.mem.write64 p.2.gs p.1 })

/-- One after the other.  `/repo/src/codegen.cc:41-54`. -/
def runAll (block : W) (prctlOk : Bool) : W × State → List Stmt → Option (W × State)
  | p, [] => some p
  | p, c :: cs => (c.run block prctlOk p).bind fun q => runAll block prctlOk q cs

/-- What is written.  `/repo/src/codegen.cc:73`. -/
def source (validateFrame : Bool) : List Char := (memRegionInit validateFrame).toList

/-- The name of the file it is written to.  `/repo/src/codegen.cc:72`. -/
def initName : List Char := "__litecfi_mem_init.c".toList

/-- The names which the pattern `*.c` stands for.  `/repo/src/codegen.cc:76-77`. -/
def isC (name : List Char) : Bool :=
  decide (name.head? ≠ some '.') && ".c".toList.isSuffixOf name

/-- Who may write: the owner, users of the owner's group, all others.  `/repo/src/codegen.cc:66`. -/
structure Mode where
  owner : Bool
  group : Bool
  others : Bool

/-- A file: its owner, who may write to it, and its text.  `/repo/src/codegen.cc:72-74`. -/
structure File where
  owner : Nat
  mode : Mode
  text : List Char

/-- What `/tmp/.litecfi_tmp` is: nothing, a directory, or something else that belongs to a user.
`/repo/src/codegen.cc:60`. -/
inductive Node
  | absent
  | dir (owner : Nat) (mode : Mode) (files : List (List Char × File))
  | other (owner : Nat)

/-- The machine on which the tool runs: what the `umask` of all users takes away (`true`: may not write), who
is in whose group, whether `/tmp` is sticky, so that only its owner removes or renames what is in it, whether
writes may fail, and which sources `gcc` compiles.  `/repo/src/codegen.cc:59-88`. -/
structure Host where
  umask : Mode
  mates : Nat → Nat → Bool
  sticky : Bool
  mayFail : Bool
  compiles : List (List Char × List Char) → Prop

/-- The permissions of what a user creates: 0777 and 0666 without what the `umask` takes away.
`/repo/src/codegen.cc:66`. -/
def Host.created (h : Host) : Mode := ⟨!h.umask.owner, !h.umask.group, !h.umask.others⟩

/-- `user` may write to what belongs to `owner`.  `/repo/src/codegen.cc:66`. -/
def Host.allows (h : Host) (owner : Nat) (m : Mode) (user : Nat) : Bool :=
  if user = owner then m.owner else if h.mates owner user then m.group else m.others

/-- What a user may do at any moment: create the node; replace it, if it belongs to them or `/tmp` is not sticky;
add, remove and replace files in a directory which they may write to; change a file which they may write to.
`/repo/src/codegen.cc:59-88`. -/
inductive Act (h : Host) (user : Nat) : Node → Node → Prop
  | create {n : Node} : Act h user .absent n
  | replaceDir {o : Nat} {m : Mode} {fs : List (List Char × File)} {n : Node} :
      user = o ∨ h.sticky = false → Act h user (.dir o m fs) n
  | replaceOther {o : Nat} {n : Node} : user = o ∨ h.sticky = false → Act h user (.other o) n
  | files {o : Nat} {m : Mode} {fs fs' : List (List Char × File)} :
      h.allows o m user = true → Act h user (.dir o m fs) (.dir o m fs')
  | text {o : Nat} {m : Mode} {fs fs' : List (List Char × File)} {name : List Char} {f : File} {t : List Char} :
      h.allows f.owner f.mode user = true →
      Act h user (.dir o m (fs ++ (name, f) :: fs')) (.dir o m (fs ++ (name, { f with text := t }) :: fs'))

/-- Where `Codegen` is: before `rm`, before `mkdir`, before the file is opened, after `off` characters have been
written, after the file has been closed, while `gcc` reads the files, and after it has returned; then there is
also what the library has been made from.  `/repo/src/codegen.cc:59-88`. -/
inductive Pc
  | start
  | removed
  | made
  | opened (off : Nat)
  | closed
  | reading (names : List (List Char)) (got : List (List Char × List Char))
  | ended (ret : List Char) (lib : Option (List (List Char × List Char)))

/-- A write of `chunk` at `off`.  `/repo/src/codegen.cc:73`. -/
def putAt (old : List Char) (off : Nat) (chunk : List Char) : List Char :=
  old.take off ++ chunk ++ old.drop (off + chunk.length)

/-- The file of this name.  `/repo/src/codegen.cc:76-77`. -/
def fileIn (name : List Char) : List (List Char × File) → Option File
  | [] => none
  | (n, f) :: fs => if n = name then some f else fileIn name fs

/-- A step of `Codegen`, executed by `user`. -/
inductive Step (h : Host) (vf : Bool) (user : Nat) : Node → Pc → Node → Pc → Prop
  /-- `rm -rf` removes a file in the directory.  `/repo/src/codegen.cc:63-64`. -/
  | rmFile {o : Nat} {m : Mode} {fs fs' : List (List Char × File)} {e : List Char × File} :
      h.allows o m user = true → Step h vf user (.dir o m (fs ++ e :: fs')) .start (.dir o m (fs ++ fs')) .start
  /-- `rm -rf` removes the empty directory.  `/repo/src/codegen.cc:63-64`. -/
  | rmDir {o : Nat} {m : Mode} : user = o ∨ h.sticky = false → Step h vf user (.dir o m []) .start .absent .removed
  /-- `rm -rf` removes something else.  `/repo/src/codegen.cc:63-64`. -/
  | rmOther {o : Nat} : user = o ∨ h.sticky = false → Step h vf user (.other o) .start .absent .removed
  /-- `rm -rf` has nothing to remove or cannot remove it; nobody looks at its exit code.
  `/repo/src/codegen.cc:63-64`. -/
  | rmEnd {n : Node} : Step h vf user n .start n .removed
  /-- `/repo/src/codegen.cc:66`. -/
  | mkdir : Step h vf user .absent .removed (.dir user h.created []) .made
  /-- It fails if there is something of this name, or for other reasons.  `/repo/src/codegen.cc:66-68`. -/
  | mkdirFails {n : Node} : Step h vf user n .removed n (.ended [] none)
  /-- The file is created.  `/repo/src/codegen.cc:72`. -/
  | create {o : Nat} {m : Mode} {fs : List (List Char × File)} : h.allows o m user = true → fileIn initName fs = none →
      Step h vf user (.dir o m fs) .made (.dir o m (fs ++ [(initName, ⟨user, h.created, []⟩)])) (.opened 0)
  /-- The file exists, and is emptied.  `/repo/src/codegen.cc:72`. -/
  | empty {o : Nat} {m : Mode} {fs fs' : List (List Char × File)} {f : File} : h.allows f.owner f.mode user = true →
      Step h vf user (.dir o m (fs ++ (initName, f) :: fs')) .made
        (.dir o m (fs ++ (initName, { f with text := [] }) :: fs')) (.opened 0)
  /-- The file cannot be opened; nobody notices.  `/repo/src/codegen.cc:72-74`. -/
  | openFails {n : Node} : Step h vf user n .made n .closed
  /-- The next `k` characters are written.  `/repo/src/codegen.cc:73-74`. -/
  | write {o : Nat} {m : Mode} {fs fs' : List (List Char × File)} {f : File} {off k : Nat} :
      h.allows f.owner f.mode user = true →
      Step h vf user (.dir o m (fs ++ (initName, f) :: fs')) (.opened off)
        (.dir o m (fs ++ (initName, { f with text := putAt f.text off (((source vf).drop off).take k) }) :: fs'))
        (.opened (off + k))
  /-- They are lost, as the file is gone.  `/repo/src/codegen.cc:73-74`. -/
  | lost {n : Node} {off k : Nat} :
      (∀ o m fs f, n = .dir o m fs → (initName, f) ∈ fs → h.allows f.owner f.mode user = false) →
      Step h vf user n (.opened off) n (.opened (off + k))
  /-- A write fails, and the rest is dropped; nobody notices.  `/repo/src/codegen.cc:73-74`. -/
  | writeFails {n : Node} {off : Nat} : h.mayFail = true → Step h vf user n (.opened off) n .closed
  /-- `/repo/src/codegen.cc:74`. -/
  | close {n : Node} {off : Nat} : (source vf).length ≤ off → Step h vf user n (.opened off) n .closed
  /-- The shell looks for files.  If it finds none, `gcc` gets the pattern, and fails.
  `/repo/src/codegen.cc:76-79`. -/
  | glob {o : Nat} {m : Mode} {fs : List (List Char × File)} :
      Step h vf user (.dir o m fs) .closed (.dir o m fs) (.reading ((fs.map (·.1)).filter isC) [])
  /-- `gcc` reads a file.  `/repo/src/codegen.cc:76-79`. -/
  | read {o : Nat} {m : Mode} {fs : List (List Char × File)} {name : List Char} {names : List (List Char)}
      {got : List (List Char × List Char)} {f : File} : fileIn name fs = some f →
      Step h vf user (.dir o m fs) (.reading (name :: names) got) (.dir o m fs)
        (.reading names (got ++ [(name, f.text)]))
  /-- `gcc` has read some file, and compiles everything.  `/repo/src/codegen.cc:79-88`. -/
  | compiled {n : Node} {got : List (List Char × List Char)} : got ≠ [] → h.compiles got →
      Step h vf user n (.reading [] got) n (.ended "libstack.so".toList (some got))
  /-- There is no directory for the shell to look into.  `/repo/src/codegen.cc:79-81`. -/
  | globFails {n : Node} : Step h vf user n .closed n (.ended [] none)
  /-- `gcc` fails.  `/repo/src/codegen.cc:79-81`. -/
  | gccFails {n : Node} {names : List (List Char)} {got : List (List Char × List Char)} :
      Step h vf user n (.reading names got) n (.ended [] none)

/-- Runs of the tool, each of a user and at some place, and the node that they share.
`/repo/src/codegen.cc:59-88`. -/
structure World where
  node : Node
  pc : Nat → Pc

/-- Either a run of the tool goes on, or one of the `users` does something.  `/repo/src/codegen.cc:59-88`. -/
inductive WorldStep (h : Host) (vf : Bool) (of : Nat → Nat) (users : Nat → Prop) : World → World → Prop
  | tool {w : World} {i : Nat} {n : Node} {p : Pc} : Step h vf (of i) w.node (w.pc i) n p →
      WorldStep h vf of users w ⟨n, fun j => if j = i then p else w.pc j⟩
  | user {w : World} {u : Nat} {n : Node} : users u → Act h u w.node n → WorldStep h vf of users w ⟨n, w.pc⟩

/-- The worlds which are reached from one in which no run of the tool has begun.  `/repo/src/codegen.cc:59-88`. -/
inductive Reached (h : Host) (vf : Bool) (of : Nat → Nat) (users : Nat → Prop) (n : Node) : World → Prop
  | start : Reached h vf of users n ⟨n, fun _ => .start⟩
  | step {w w' : World} : Reached h vf of users n w → WorldStep h vf of users w w' → Reached h vf of users n w'

/-- What the library should be made from. -/
def Genuine (vf : Bool) (lib : List (List Char × List Char)) : Prop :=
  lib = [("__litecfi_mem_init.c".toList, (memRegionInit vf).toList)]

end Verif.Codegen
