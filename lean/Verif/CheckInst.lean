import Verif.Strings
import Verif.SkipList

/-!
# The check of a rewritten binary (`/repo/script/check_inst.py`)

What the script does with the output of `objdump -d`.  Strings are those of Python 2.  A result
`none` is an exception.  Not modelled: running `objdump` and printing.
-/

namespace Verif

/-- Python's `split` at the characters which satisfy `p`.
`/repo/script/check_inst.py:28,32,37,48,55`. -/
def pySplitP (p : Char → Bool) : List Char → List (List Char)
  | [] => [[]]
  | c :: s =>
    if p c then [] :: pySplitP p s
    else match pySplitP p s with
      | w :: ws => (c :: w) :: ws
      | [] => [[c]]

/-- `s.split(d)`.  `/repo/script/check_inst.py:28,32,37,48,55`. -/
def pySplit (d : Char) (s : List Char) : List (List Char) := pySplitP (fun c => c == d) s

/-- `s.split()`.  `/repo/script/check_inst.py:34,57`. -/
def pyWords (s : List Char) : List (List Char) := (pySplitP isSpaceC s).filter fun w => !w.isEmpty

/-- `d.join(l)`.  `/repo/script/check_inst.py:38`. -/
def pyJoin (d : Char) : List (List Char) → List Char
  | [] => []
  | [w] => w
  | w :: ws => w ++ d :: pyJoin d ws

/-- `s[i:]` where `i` is what `find` returned: without an occurrence it is -1, the last
character.  `/repo/script/check_inst.py:27-28`. -/
def sliceFrom (s : List Char) (i : Option Nat) : List Char :=
  match i with
  | some n => s.drop n
  | none => s.drop (s.length - 1)

/-- `s[i:j]` for two results of `find`.  `/repo/script/check_inst.py:46-48`. -/
def sliceBetween (s : List Char) (i j : Option Nat) : List Char :=
  let last := s.length - 1
  (s.take (j.getD last)).drop (i.getD last)

/-- One line in `ParseObjdumpOutput`, `/repo/script/check_inst.py:31-38`: address and instruction. -/
def parseLine (line : List Char) : Option (Option (List Char × List Char)) :=
  if (strFind line [':']).isNone then some none
  else match (pySplit ':' line).head? with
    | none => none
    | some [] => none
    | some (c :: part) =>
      if c ≠ ' ' then some none
      else match pyWords (c :: part) with
        | [addr] => some (some (addr, pyJoin '\t' ((pySplit '\t' line).drop 2)))
        | _ => some none

/-- The loop, `/repo/script/check_inst.py:29-41`: address, instruction and the one before it, in the
order in which they are stored. -/
def parseLines : List (List Char) → List Char → Option (List (List Char × List Char × List Char))
  | [], _ => some []
  | line :: lines, last => do
    match ← parseLine line with
    | none => parseLines lines last
    | some (addr, insn) => return (addr, insn, last) :: (← parseLines lines insn)

/-- `ParseObjdumpOutput`, `/repo/script/check_inst.py:24-42`. -/
def parseObjdump (o : List Char) : Option (List (List Char × List Char × List Char)) :=
  parseLines (pySplit '\n' (sliceFrom o (strFind o ".dyninstInst".toList))) []

/-- `relocation[addr]`: the value stored last.  `/repo/script/check_inst.py:65,70`. -/
def relocationAt (l : List (List Char × List Char × List Char)) (addr : List Char) : Option (List Char) :=
  (l.reverse.lookup addr).map (·.1)

/-- `prev_line[addr]`.  `/repo/script/check_inst.py:92-93`. -/
def prevLineAt (l : List (List Char × List Char × List Char)) (addr : List Char) : Option (List Char) :=
  (l.reverse.lookup addr).map (·.2)

/-- What follows a line that ends with a colon, `/repo/script/check_inst.py:54-75`: whether there is a
complaint. -/
def springFirst (reloc : List Char → Option (List Char)) (first : List Char) : Option Bool :=
  match (pySplit '\t' first)[2]? with
  | none => some false
  | some part =>
    match pyWords part with
    | [] => none
    | opcode :: args =>
      if opcode ≠ "jmpq".toList then some true
      else match args with
        | [] => none
        | target :: _ =>
          match reloc target with
          | none => some true
          | some relocated => some (strFind relocated "push".toList).isNone

/-- The loop of `CheckSpringBoard`, `/repo/script/check_inst.py:49-75`: the lines complained about. -/
def springLines (reloc : List Char → Option (List Char)) : List (List Char) → Option (List (List Char))
  | [] => some []
  | [line] => if line.getLast? = some ':' then none else some []
  | line :: first :: rest =>
    if line.getLast? = some ':' then do
      let bad ← springFirst reloc first
      let l ← springLines reloc (first :: rest)
      return if bad then line :: l else l
    else springLines reloc (first :: rest)

/-- `CheckSpringBoard`, `/repo/script/check_inst.py:44-76`. -/
def springBoards (reloc : List Char → Option (List Char)) (o : List Char) : Option (List (List Char)) :=
  springLines reloc
    (pySplit '\n' (sliceBetween o (strFind o ".text".toList) (strFind o ".fini".toList)))

/-- `s.strip()`.  `/repo/script/check_inst.py:82`. -/
def pyStrip (s : List Char) : List Char :=
  ((s.dropWhile isSpaceC).reverse.dropWhile isSpaceC).reverse

/-- One line in `GetReturnAddresses`, `/repo/script/check_inst.py:82-84`. -/
def returnAddress (line : List Char) : List Char :=
  let ra := pyStrip line.dropLast
  if ['0', 'x'].isPrefixOf ra then ra.drop 2 else ra

/-- `RunObjdump`, `/repo/script/check_inst.py:18`: whether there was an error. -/
def objdumpFailed (err : List Char) : Bool :=
  match strFind err "error".toList with
  | some (_ + 1) => true
  | _ => false

end Verif
