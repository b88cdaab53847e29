import Verif.SkipList
import Verif.Props.Plan

/-!
# C75: the skip list file
-/

namespace Verif

/-! ## Specification -/

/-- A digit and its value. -/
def HexDigit (c : Char) (d : Nat) : Prop :=
  (c, d) ∈ [('0', 0), ('1', 1), ('2', 2), ('3', 3), ('4', 4), ('5', 5), ('6', 6), ('7', 7),
    ('8', 8), ('9', 9), ('a', 10), ('b', 11), ('c', 12), ('d', 13), ('e', 14), ('f', 15),
    ('A', 10), ('B', 11), ('C', 12), ('D', 13), ('E', 14), ('F', 15)]

/-- Digits and the number they stand for, following the number `n`. -/
inductive HexFrom : Nat → List Char → Nat → Prop
  | nil {n} : HexFrom n [] n
  | cons {n c d s v} : HexDigit c d → HexFrom (16 * n + d) s v → HexFrom n (c :: s) v

/-- A word that is an address: digits, perhaps behind `0x`. -/
inductive AddrWord : List Char → Nat → Prop
  | plain {s v} : s ≠ [] → HexFrom 0 s v → v < 2 ^ 64 → AddrWord s v
  | prefixed {s v} : s ≠ [] → HexFrom 0 s v → v < 2 ^ 64 → AddrWord ('0' :: 'x' :: s) v

/-- A file of addresses with white space around and between them. -/
inductive AddrFile : List Char → List Nat → Prop
  | nil : AddrFile [] []
  | space {c s l} : c ∈ [' ', '\t', '\n', '\x0b', '\x0c', '\r'] → AddrFile s l → AddrFile (c :: s) l
  | word {w v c s l} : AddrWord w v → c ∈ [' ', '\t', '\n', '\x0b', '\x0c', '\r'] → AddrFile s l →
      AddrFile (w ++ c :: s) (v :: l)
  | last {w v} : AddrWord w v → AddrFile w [v]

/-! ## Lemmas -/

theorem space_iff (c : Char) :
    isSpaceC c = true ↔ c ∈ [' ', '\t', '\n', '\x0b', '\x0c', '\r'] := by
  simp [isSpaceC, or_assoc]

theorem hexVal_of {c : Char} {d : Nat} (h : HexDigit c d) : hexVal c = some d := by
  unfold HexDigit at h
  simp only [List.mem_cons, Prod.mk.injEq, List.not_mem_nil, or_false] at h
  rcases h with ⟨rfl, rfl⟩ | h
  · decide
  iterate 20
    rcases h with ⟨rfl, rfl⟩ | h
    · decide
  obtain ⟨rfl, rfl⟩ := h
  decide

theorem hexDigit_lt {c : Char} {d : Nat} (h : HexDigit c d) : d < 16 := by
  have := hexVal_of h
  unfold hexVal at this
  split at this
  · cases this; omega
  · split at this
    · cases this; omega
    · split at this
      · cases this; omega
      · cases this

/-- Not a digit. -/
def NoDigit : List Char → Prop
  | [] => True
  | c :: _ => hexVal c = none

theorem hexFrom_le {n v : Nat} {s : List Char} (h : HexFrom n s v) : n ≤ v := by
  induction h with
  | nil => exact Nat.le_refl _
  | cons _ _ ih => omega

theorem readDigits_good {n v : Nat} {s : List Char} (h : HexFrom n s v) (hv : v < 2 ^ 64)
    {r : List Char} (hr : NoDigit r) (k : Nat) :
    readDigits (s ++ r) (n, false) k = ((v, false), k + s.length, r) := by
  induction h generalizing k with
  | nil =>
    cases r with
    | nil => rfl
    | cons c r =>
      simp only [NoDigit] at hr
      simp [readDigits, hr]
  | @cons n c d s v hd h' ih =>
    have hle := hexFrom_le h'
    have hd16 := hexDigit_lt hd
    rw [List.cons_append]
    unfold readDigits
    rw [hexVal_of hd]
    have : digitStep (n, false) d = (16 * n + d, false) := by
      unfold digitStep ulongMax
      rw [if_neg (by simp only; omega)]
      simp only [Bool.false_or, Prod.mk.injEq, decide_eq_false_iff_not]
      omega
    simp only [this]
    rw [ih hv, List.length_cons]
    congr 2
    omega

theorem readDigits_over {s : List Char} (p : Nat) {r : List Char} :
    ∀ k, (readDigits (s ++ r) (p, true) k).1.2 = true := by
  generalize s ++ r = t
  clear s r
  induction t generalizing p with
  | nil => intro k; rfl
  | cons c t ih =>
    intro k
    unfold readDigits
    split
    · unfold digitStep
      split
      · exact ih _ _
      · simp only [Bool.true_or]
        exact ih _ _
    · rfl

/-- A number that does not fit. -/
theorem readDigits_big {n v : Nat} {s : List Char} (h : HexFrom n s v) (hn : n < 2 ^ 64)
    (hv : 2 ^ 64 ≤ v) {r : List Char} (k : Nat) :
    (readDigits (s ++ r) (n, false) k).1.2 = true := by
  induction h generalizing k with
  | nil => omega
  | @cons n c d s v hd h' ih =>
    have hd16 := hexDigit_lt hd
    rw [List.cons_append]
    unfold readDigits
    rw [hexVal_of hd]
    simp only
    unfold digitStep ulongMax
    simp only
    split
    · exact readDigits_over _ _
    · rename_i hs
      have e : (n * 16 > 2 ^ 64 - 1 - d) = False := by
        simp only [eq_iff_iff, iff_false]; omega
      simp only [e, decide_false, Bool.or_false]
      have : n * 16 + d = 16 * n + d := by omega
      rw [this]
      exact ih (by omega) hv _

theorem sign_ne {c : Char} {d : Nat} (h : HexDigit c d) : c ≠ '-' ∧ c ≠ '+' := by
  have := hexVal_of h
  constructor <;> (rintro rfl; revert this; simp [hexVal])

theorem readSign_other {c : Char} (h1 : c ≠ '-') (h2 : c ≠ '+') (s : List Char) :
    readSign (c :: s) = (false, c :: s) := by
  unfold readSign
  split
  · rename_i h; injection h with h; exact absurd h h1
  · rename_i h; injection h with h; exact absurd h h2
  · rfl

/-- What may follow a word: white space, or anything else that is neither a digit nor an `x`. -/
def EndsWord : List Char → Prop
  | [] => True
  | c :: _ => hexVal c = none ∧ c ≠ 'x' ∧ c ≠ 'X'

theorem EndsWord.noDigit {r : List Char} (h : EndsWord r) : NoDigit r := by
  cases r with
  | nil => trivial
  | cons c r => exact h.1

theorem zero_digit {d : Nat} (h : HexDigit '0' d) : d = 0 := by
  have := hexVal_of h
  rw [show hexVal '0' = some 0 by decide] at this
  cases this
  rfl

theorem getHex_plain {s : List Char} {v : Nat} (hs : s ≠ []) (h : HexFrom 0 s v) (hv : v < 2 ^ 64)
    {r : List Char} (hr : EndsWord r) : getHex (s ++ r) = (some v, r) := by
  cases h with
  | nil => exact absurd rfl hs
  | @cons _ c d s _ hd h' =>
    have hsg : readSign (c :: (s ++ r)) = (false, c :: (s ++ r)) :=
      readSign_other (sign_ne hd).1 (sign_ne hd).2 _
    by_cases hc : c = '0'
    · subst hc
      have h0 := zero_digit hd
      subst h0
      have hz : readZero ('0' :: (s ++ r)) = (true, s ++ r) := by
        have hx : ∀ t, s ++ r ≠ 'x' :: t ∧ s ++ r ≠ 'X' :: t := by
          intro t
          cases h' with
          | nil =>
            cases r with
            | nil => exact ⟨nofun, nofun⟩
            | cons q r =>
              exact ⟨fun e => hr.2.1 (by injection e), fun e => hr.2.2 (by injection e)⟩
          | @cons _ q d' s' _ hd' _ =>
            have hq := hexVal_of hd'
            refine ⟨fun e => ?_, fun e => ?_⟩ <;>
            · injection e with e _
              subst e
              revert hq
              simp [hexVal]
        unfold readZero
        split
        · rename_i t e; injection e with _ e; exact absurd e (hx t).1
        · rename_i t e; injection e with _ e; exact absurd e (hx t).2
        · rename_i t e1 e2 e; injection e with _ e; rw [e]
        · rename_i e; exact absurd rfl (e _)
      have hd' := readDigits_good h' hv hr.noDigit 0
      simp only [Nat.mul_zero, Nat.zero_add] at hd'
      simp only [getHex, List.cons_append, hsg, hz, hd']
      simp
    · have hz : readZero (c :: (s ++ r)) = (false, c :: (s ++ r)) := by
        unfold readZero
        split
        · rename_i e; injection e with e; exact absurd e hc
        · rename_i e; injection e with e; exact absurd e hc
        · rename_i e; injection e with e; exact absurd e hc
        · rfl
      have hd' := readDigits_good (HexFrom.cons hd h') hv hr.noDigit 0
      rw [List.cons_append] at hd'
      simp only [getHex, List.cons_append, hsg, hz, hd']
      simp

theorem getHex_prefixed {s : List Char} {v : Nat} (hs : s ≠ []) (h : HexFrom 0 s v)
    (hv : v < 2 ^ 64) {r : List Char} (hr : NoDigit r) :
    getHex ('0' :: 'x' :: s ++ r) = (some v, r) := by
  have hd' := readDigits_good h hv hr 0
  have hl : s.length ≠ 0 := fun e => hs (List.length_eq_zero_iff.1 e)
  simp only [getHex, List.cons_append,
    readSign_other (c := '0') (by decide) (by decide), readZero, hd']
  simp [hl]

theorem getHex_word {w : List Char} {v : Nat} (h : AddrWord w v) {r : List Char}
    (hr : EndsWord r) : getHex (w ++ r) = (some v, r) := by
  cases h with
  | plain h1 h2 h3 => exact getHex_plain h1 h2 h3 hr
  | prefixed h1 h2 h3 => exact getHex_prefixed h1 h2 h3 hr.noDigit

theorem word_head {w : List Char} {v : Nat} (h : AddrWord w v) :
    ∃ c t, w = c :: t ∧ isSpaceC c = false := by
  have key : ∀ c d, HexDigit c d → isSpaceC c = false := by
    intro c d hd
    cases hs : isSpaceC c with
    | false => rfl
    | true =>
      have hq := hexVal_of hd
      rw [space_iff] at hs
      simp only [List.mem_cons, List.not_mem_nil, or_false] at hs
      rcases hs with rfl | rfl | rfl | rfl | rfl | rfl <;> (revert hq; simp [hexVal])
  cases h with
  | plain h1 h2 _ =>
    cases h2 with
    | nil => exact absurd rfl h1
    | cons hd _ => exact ⟨_, _, rfl, key _ _ hd⟩
  | prefixed _ _ _ => exact ⟨_, _, rfl, by decide⟩

theorem extractAddr_word {w : List Char} {v : Nat} (h : AddrWord w v) {r : List Char}
    (hr : EndsWord r) : extractAddr (w ++ r) = (some v, r) := by
  obtain ⟨c, t, e, hs⟩ := word_head h
  unfold extractAddr
  have : (w ++ r).dropWhile isSpaceC = w ++ r := by
    rw [e, List.cons_append, List.dropWhile_cons_of_neg (by rw [hs]; decide)]
  rw [this]
  exact getHex_word h hr

theorem readSkips_word {w : List Char} {v : Nat} (h : AddrWord w v) {r : List Char}
    (hr : EndsWord r) : readSkips (w ++ r) = v :: readSkips r := by
  have e := extractAddr_word h hr
  rw [readSkips]
  split
  · rename_i h'; rw [e] at h'; cases h'
  · rename_i v' h'; rw [e] at h'; cases h'; rw [e]

theorem readSkips_space {c : Char} (hc : c ∈ [' ', '\t', '\n', '\x0b', '\x0c', '\r'])
    (s : List Char) : readSkips (c :: s) = readSkips s := by
  have e : extractAddr (c :: s) = extractAddr s := by
    unfold extractAddr
    rw [List.dropWhile_cons_of_pos ((space_iff c).2 hc)]
  rw [readSkips]
  conv => rhs; rw [readSkips]
  split
  · rename_i h
    split
    · rfl
    · rename_i h'; rw [e] at h; rw [h] at h'; cases h'
  · rename_i v h
    split
    · rename_i h'; rw [e] at h; rw [h] at h'; cases h'
    · rename_i v' h'
      rw [e] at h; rw [h] at h'; cases h'
      rw [e]

theorem endsWord_space {c : Char} (hc : c ∈ [' ', '\t', '\n', '\x0b', '\x0c', '\r'])
    (s : List Char) : EndsWord (c :: s) := by
  simp only [List.mem_cons, List.not_mem_nil, or_false] at hc
  rcases hc with rfl | rfl | rfl | rfl | rfl | rfl <;> exact ⟨by decide, by decide, by decide⟩

/-! ## The property -/

/-- C75, part.  From a file of addresses exactly these are read.  Missing: files with anything
else in them. -/
theorem C75_file_partial {s : List Char} {l : List Nat} (h : AddrFile s l) : readSkips s = l := by
  induction h with
  | nil => rw [readSkips]; rfl
  | space hc _ ih => rw [readSkips_space hc, ih]
  | word hw hc _ ih =>
    rw [readSkips_word hw (endsWord_space hc _), readSkips_space hc, ih]
  | @last w v hw =>
    have := readSkips_word hw (r := []) trivial
    rw [List.append_nil] at this
    rw [this]
    congr 1
    rw [readSkips]; rfl

/-- The beginning of something that is not a number. -/
def BadStart (c : Char) : Prop :=
  hexVal c = none ∧ isSpaceC c = false ∧ c ≠ '-' ∧ c ≠ '+'

theorem readSkips_bad {c : Char} (h : BadStart c) (s : List Char) : readSkips (c :: s) = [] := by
  obtain ⟨h1, h2, h3, h4⟩ := h
  have h0 : c ≠ '0' := by rintro rfl; revert h1; decide
  have e : (extractAddr (c :: s)).1 = none := by
    unfold extractAddr
    rw [List.dropWhile_cons_of_neg (by rw [h2]; decide)]
    have hz : readZero (c :: s) = (false, c :: s) := by
      unfold readZero
      split
      · rename_i e; injection e with e; exact absurd e h0
      · rename_i e; injection e with e; exact absurd e h0
      · rename_i e; injection e with e; exact absurd e h0
      · rfl
    simp [getHex, readSign_other h3 h4, hz, readDigits, h1]
  rw [readSkips]
  split
  · rfl
  · rename_i h'; rw [e] at h'; cases h'

/-- A file of addresses in which every word is followed by white space. -/
inductive AddrLines : List Char → List Nat → Prop
  | nil : AddrLines [] []
  | space {c s l} : c ∈ [' ', '\t', '\n', '\x0b', '\x0c', '\r'] → AddrLines s l → AddrLines (c :: s) l
  | word {w v c s l} : AddrWord w v → c ∈ [' ', '\t', '\n', '\x0b', '\x0c', '\r'] → AddrLines s l →
      AddrLines (w ++ c :: s) (v :: l)

theorem readSkips_lines {s : List Char} {l : List Nat} (h : AddrLines s l) (r : List Char) :
    readSkips (s ++ r) = l ++ readSkips r := by
  induction h with
  | nil => rfl
  | space hc _ ih => rw [List.cons_append, readSkips_space hc, ih]
  | word hw hc _ ih =>
    rw [List.append_assoc, List.cons_append, readSkips_word hw (endsWord_space hc _),
      readSkips_space hc, ih, List.cons_append]

/-- C75 is false: at the first thing that is not a number reading stops, and all addresses
behind it, whatever they are, are lost. -/
theorem C75_refuted_stops {s : List Char} {l : List Nat} (h : AddrLines s l) {c : Char}
    (hc : BadStart c) (r : List Char) : readSkips (s ++ c :: r) = l := by
  rw [readSkips_lines h, readSkips_bad hc, List.append_nil]

/-- C75 is false for numbers that do not fit as well. -/
theorem C75_refuted_big {s : List Char} {l : List Nat} (h : AddrLines s l) {w : List Char} {v : Nat}
    (hw : HexFrom 0 w v) (hv : 2 ^ 64 ≤ v) (r : List Char) :
    readSkips (s ++ ('0' :: 'x' :: w ++ r)) = l := by
  rw [readSkips_lines h]
  have e : (extractAddr ('0' :: 'x' :: w ++ r)).1 = none := by
    unfold extractAddr
    rw [List.cons_append, List.cons_append, List.dropWhile_cons_of_neg (by decide)]
    simp only [getHex, readSign_other (c := '0') (by decide) (by decide), readZero]
    rw [readDigits_big hw (by decide) hv 0]
    simp
  have : readSkips ('0' :: 'x' :: w ++ r) = [] := by
    rw [readSkips]
    split
    · rfl
    · rename_i h'; rw [e] at h'; cases h'
  rw [this, List.append_nil]

/-- The digits `401000`. -/
theorem hexFrom_example : HexFrom 0 ['4', '0', '1', '0', '0', '0'] 0x401000 := by
    refine .cons (d := 4) (by unfold HexDigit; decide) ?_
    refine .cons (d := 0) (by unfold HexDigit; decide) ?_
    refine .cons (d := 1) (by unfold HexDigit; decide) ?_
    refine .cons (d := 0) (by unfold HexDigit; decide) ?_
    refine .cons (d := 0) (by unfold HexDigit; decide) ?_
    refine .cons (d := 0) (by unfold HexDigit; decide) ?_
    exact .nil

/-- The file `401000⏎# f⏎402000⏎`: the second address is lost. -/
theorem C75_refuted :
    readSkips ['4', '0', '1', '0', '0', '0', '\n', '#', ' ', 'f', '\n', '4', '0', '2', '0', '0', '0', '\n'] = [0x401000] :=
  C75_refuted_stops (s := ['4', '0', '1', '0', '0', '0', '\n']) (c := '#')
    (.word (w := ['4', '0', '1', '0', '0', '0']) (.plain (by decide) hexFrom_example (by decide)) (by decide) .nil)
    ⟨by decide, by decide, by decide, by decide⟩ _

/-- A file with two addresses, one of them with `0x`. -/
example : AddrFile (['4', '0', '1', '0', '0', '0'] ++ '\n' :: ' ' :: ['0', 'x', '4', '0', '1', '0', '0', '0']) [0x401000, 0x401000] :=
  .word (.plain (by decide) hexFrom_example (by decide)) (by decide)
    (.space (by decide) (.last (.prefixed (by decide) hexFrom_example (by decide))))

/-- A number that does not fit. -/
example : HexFrom 0 ['1', '0', '0', '0', '0', '0', '0', '0', '0', '0', '0', '0', '0', '0', '0', '0', '0'] (2 ^ 64) := by
  refine .cons (d := 1) (by unfold HexDigit; decide) ?_
  iterate 16 refine .cons (d := 0) (by unfold HexDigit; decide) ?_
  exact .nil

/-- A minus sign is accepted: `-1` is the last address. -/
theorem C75_negative : readSkips ['-', '1'] = [2 ^ 64 - 1] := by
  have e : extractAddr ['-', '1'] = (some (2 ^ 64 - 1), []) := by decide +kernel
  rw [readSkips]
  split
  · rename_i h; rw [e] at h; cases h
  · rename_i v h
    rw [e] at h; cases h
    rw [e]
    congr 1
    rw [readSkips]; rfl

/-! ## The functions of the program -/

/-- C75, part.  In light mode with safe function elision, from a file of addresses, a function
not classified safe is left alone exactly if the file lists it. -/
theorem C75_skips_partial {s : List Char} {l : List Nat} (hs : AddrFile s l) {fl : InstrFlags}
    {co : CodeObj} {an : Nat → Option (FuncSummary × List WriteInfo)} {f : BFunc} {st st' : Stats}
    {p : Plan} (h : instrumentFunction fl (readSkips s) co an f st = some (p, st'))
    (hl : fl.shadowStack = "light") (hd : fl.disableSfe = false)
    (hn : ∀ s, summaryOf fl an f = some s → s.safe = false) :
    p.kind = .skipped ↔ f.base ∈ l := by
  rw [C75_file_partial hs] at h
  rw [((C40_strategy h).1 hl).1]
  constructor
  · rintro ⟨_, ⟨s, h1, h2⟩ | h'⟩
    · rw [hn s h1] at h2; cases h2
    · exact h'
  · exact fun h' => ⟨hd, .inr h'⟩

/-- A function listed only behind a comment is instrumented. -/
theorem C75_refuted_instrumented {s : List Char} {l : List Nat} (hs : AddrLines s l) {c : Char}
    (hc : BadStart c) (r : List Char) {fl : InstrFlags}
    {co : CodeObj} {an : Nat → Option (FuncSummary × List WriteInfo)} {f : BFunc} {st st' : Stats}
    {p : Plan} (h : instrumentFunction fl (readSkips (s ++ c :: r)) co an f st = some (p, st'))
    (hl : fl.shadowStack = "light") (hn : ∀ s, summaryOf fl an f = some s → s.safe = false)
    (hf : f.base ∉ l) : p.kind ≠ .skipped := by
  rw [C75_refuted_stops hs hc] at h
  intro hk
  rcases (((C40_strategy h).1 hl).1.1 hk).2 with ⟨s, h1, h2⟩ | h'
  · rw [hn s h1] at h2; cases h2
  · exact hf h'

end Verif
