/-!
# Helpers: paths (`/repo/src/utils.cc:115-134`) and trace compression (`/repo/script/compress.py`)
-/

namespace Verif

/-- `std::getline(ss, item, d)` on a stream with these characters left: the item, and what is left
behind the delimiter, or `none` there if the end was reached.  The call itself fails (`none`) if
there is nothing to extract.  `/repo/src/utils.cc:119`. -/
def getline (d : Char) : List Char → Option (List Char × Option (List Char))
  | [] => none
  | c :: s =>
    if c = d then some ([], some s)
    else match getline d s with
      | none => some ([c], none)
      | some (item, rest) => some (c :: item, rest)

theorem getline_length (d : Char) : ∀ (s item rest : List Char),
    getline d s = some (item, some rest) → rest.length < s.length := by
  intro s
  induction s with
  | nil => intro item rest h; cases h
  | cons c s ih =>
    intro item rest h
    rw [getline] at h
    split at h
    · cases h; simp
    · split at h
      · cases h
      · rename_i r hr
        cases h
        have := ih _ _ hr
        simp only [List.length_cons]
        omega

/-- `Split`, `/repo/src/utils.cc:115-128`: after the end has been reached the next `getline`
fails. -/
def split (d : Char) (s : List Char) : List (List Char) :=
  match _h : getline d s with
  | none => []
  | some (item, none) => [item]
  | some (item, some rest) => item :: split d rest
termination_by s.length
decreasing_by exact getline_length d s item rest (by assumption)

/-- `GetFileNameFromPath`, `/repo/src/utils.cc:130-134`; `none` is the access to element `-1` of
an empty vector. -/
def fileName (s : List Char) : Option (List Char) := (split '/' s).getLast?

variable {α : Type} [DecidableEq α]

/-- The first loop, `/repo/script/compress.py:21-29`: `prev` is the previous line. -/
def cr1Loop : Option α → List α → List α
  | _, [] => []
  | prev, x :: xs => if some x ≠ prev then x :: cr1Loop (some x) xs else cr1Loop (some x) xs

/-- `cr1`.  `/repo/script/compress.py:21-29`. -/
def cr1 (lines : List α) : List α := cr1Loop none lines

/-- The second loop, `/repo/script/compress.py:31-40`: `aset` is the window. -/
def cr2Loop : List α → List α → List α
  | _, [] => []
  | aset, x :: xs =>
    let aset' := aset ++ [x]
    let aset' := if aset'.length > 2 then aset'.tail else aset'
    if x ∉ aset then x :: cr2Loop aset' xs else cr2Loop aset' xs

/-- `cr2`.  `/repo/script/compress.py:31-40`. -/
def cr2 (lines : List α) : List α := cr2Loop [] lines

/-- `100 - (crN_depth / depth) * 100` in hundredths of a percent of lines, rounded down,
`/repo/script/compress.py:46-47`; `none` is the division by zero. -/
def ratio (kept depth : Nat) : Option Nat :=
  if depth = 0 then none else some (10000 - kept * 10000 / depth)

end Verif
