/-!
# Reading the skip list (`/repo/src/instrument.cc:1017-1022`)

`while (infile >> std::hex >> addr) skip_addrs.insert(addr);` with the formatted input of the
C++ library for `unsigned long` in base 16 and the "C" locale: white space is skipped, then a
sign, one zero, an `x` after it and digits are taken as far as they go (`num_get`, as libstdc++
implements it).  A file that cannot be opened reads as an empty one: the first extraction fails.
-/

namespace Verif

/-- `std::isspace` in the "C" locale.  `/repo/src/instrument.cc:1018-1021`. -/
def isSpaceC (c : Char) : Bool :=
  c == ' ' || c == '\t' || c == '\n' || c == '\x0b' || c == '\x0c' || c == '\r'

/-- The position of a character among the hexadecimal digits.
`/repo/src/instrument.cc:1018-1021`. -/
def hexVal (c : Char) : Option Nat :=
  if 48 ≤ c.toNat ∧ c.toNat ≤ 57 then some (c.toNat - 48)
  else if 97 ≤ c.toNat ∧ c.toNat ≤ 102 then some (c.toNat - 87)
  else if 65 ≤ c.toNat ∧ c.toNat ≤ 70 then some (c.toNat - 55)
  else none

/-- The greatest `unsigned long`.  `/repo/src/instrument.cc:1018-1021`. -/
def ulongMax : Nat := 2 ^ 64 - 1

/-- One digit: the number so far and whether it has overflowed.
`/repo/src/instrument.cc:1018-1021`. -/
def digitStep (p : Nat × Bool) (d : Nat) : Nat × Bool :=
  if p.1 > ulongMax / 16 then (p.1, true)
  else (p.1 * 16 + d, p.2 || decide (p.1 * 16 > ulongMax - d))

/-- The digits at the beginning: number, overflow, how many, and what is left.
`/repo/src/instrument.cc:1018-1021`. -/
def readDigits : List Char → Nat × Bool → Nat → (Nat × Bool) × Nat × List Char
  | [], p, n => (p, n, [])
  | c :: s, p, n => match hexVal c with
    | some d => readDigits s (digitStep p d) (n + 1)
    | none => (p, n, c :: s)

/-- A sign: whether it is a minus, and what is left.  `/repo/src/instrument.cc:1018-1021`. -/
def readSign : List Char → Bool × List Char
  | '-' :: s => (true, s)
  | '+' :: s => (false, s)
  | s => (false, s)

/-- One zero and an `x` after it: whether a zero was found that counts as a digit, and what is
left.  `/repo/src/instrument.cc:1018-1021`. -/
def readZero : List Char → Bool × List Char
  | '0' :: 'x' :: s => (false, s)
  | '0' :: 'X' :: s => (false, s)
  | '0' :: s => (true, s)
  | s => (false, s)

/-- `num_get::get`: the value, or `none` if the stream fails, and what is left.
`/repo/src/instrument.cc:1018-1021`. -/
def getHex (s : List Char) : Option Nat × List Char :=
  let sign := readSign s
  let zero := readZero sign.2
  let r := readDigits zero.2 (0, false) 0
  (if r.2.1 = 0 ∧ zero.1 = false then none
   else if r.1.2 then none
   else some (if sign.1 then (2 ^ 64 - r.1.1) % 2 ^ 64 else r.1.1), r.2.2)

/-- `infile >> addr`: white space first.  `/repo/src/instrument.cc:1018-1021`. -/
def extractAddr (s : List Char) : Option Nat × List Char := getHex (s.dropWhile isSpaceC)

theorem readDigits_len (s : List Char) (p : Nat × Bool) (n : Nat) :
    (readDigits s p n).2.2.length + (readDigits s p n).2.1 = s.length + n := by
  induction s generalizing p n with
  | nil => simp [readDigits]
  | cons c s ih =>
    unfold readDigits
    split
    · rw [ih, List.length_cons]; omega
    · rfl

theorem readSign_len (s : List Char) : (readSign s).2.length ≤ s.length := by
  unfold readSign
  split <;> simp

theorem readZero_len (s : List Char) :
    (readZero s).2.length ≤ s.length ∧ ((readZero s).1 = true → (readZero s).2.length < s.length) := by
  unfold readZero
  split <;> simp <;> omega

/-- An extraction that succeeds takes something. -/
theorem extractAddr_len {s : List Char} {v : Nat} (h : (extractAddr s).1 = some v) :
    (extractAddr s).2.length < s.length := by
  have hw : (s.dropWhile isSpaceC).length ≤ s.length := (List.dropWhile_suffix _).length_le
  unfold extractAddr at h ⊢
  generalize s.dropWhile isSpaceC = t at h hw
  have h1 := readSign_len t
  have h2 := readZero_len (readSign t).2
  have h3 := readDigits_len (readZero (readSign t).2).2 (0, false) 0
  simp only [getHex] at h ⊢
  split at h
  · cases h
  · rename_i hn
    by_cases hz : (readZero (readSign t).2).1 = true
    · have := h2.2 hz
      omega
    · have : (readDigits (readZero (readSign t).2).2 (0, false) 0).2.1 ≠ 0 :=
        fun e => hn ⟨e, by simpa using hz⟩
      omega

/-- The loop: the addresses in the order in which they are inserted.
`/repo/src/instrument.cc:1018-1021`. -/
def readSkips (s : List Char) : List Nat :=
  match _h : (extractAddr s).1 with
  | none => []
  | some v => v :: readSkips (extractAddr s).2
termination_by s.length
decreasing_by exact extractAddr_len _h

end Verif
