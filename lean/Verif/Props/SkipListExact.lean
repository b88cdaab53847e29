import Verif.Props.SkipList

/-!
# C75: what is read from any file
-/

namespace Verif

/-! ## Specification -/

/-- The text `r` does not begin with one of the characters. -/
def NotFirst (P : Char → Prop) : List Char → Prop
  | [] => True
  | c :: _ => ¬ P c

/-- The text `s` begins with a number, or with as much of one as there is: a sign, `0x` or `0X`,
and all the digits which follow.  `o` is its value, if it has digits and fits into 64 bits (a
minus sign takes it from `2 ^ 64`), and `r` is the text behind it. -/
inductive Number : List Char → Option Nat → List Char → Prop
  | mk {sign pre ds r : List Char} {v : Nat} {o : Option Nat} :
      sign ∈ [[], ['-'], ['+']] → pre ∈ [[], ['0', 'x'], ['0', 'X']] → HexFrom 0 ds v →
      NotFirst (fun c => ∃ d, HexDigit c d) r →
      (sign = [] → pre = [] → ds = [] → NotFirst (fun c => c = '-' ∨ c = '+') r) →
      (pre = [] → ds = ['0'] → NotFirst (fun c => c = 'x' ∨ c = 'X') r) →
      (ds = [] ∨ 2 ^ 64 ≤ v → o = none) →
      (ds ≠ [] → v < 2 ^ 64 → o = some (if sign = ['-'] then (2 ^ 64 - v) % 2 ^ 64 else v)) →
      Number (sign ++ pre ++ ds ++ r) o r

/-- White space. -/
def Space (c : Char) : Prop := c ∈ [' ', '\t', '\n', '\x0b', '\x0c', '\r']

/-- The addresses read from a file: numbers with or without white space between them, up to
the first text which is not a number or does not fit. -/
inductive Reads : List Char → List Nat → Prop
  | stop {sp s r} : (∀ c ∈ sp, Space c) → NotFirst Space s → Number s none r → Reads (sp ++ s) []
  | next {sp s r v l} : (∀ c ∈ sp, Space c) → NotFirst Space s → Number s (some v) r → Reads r l →
      Reads (sp ++ s) (v :: l)

/-! ## Numbers -/

theorem hexVal_iff (c : Char) (d : Nat) : hexVal c = some d ↔ HexDigit c d := by
  refine ⟨fun h => ?_, hexVal_of⟩
  unfold hexVal at h
  unfold HexDigit
  have hc : c = Char.ofNat c.toNat := (Char.ofNat_toNat c).symm
  generalize c.toNat = n at h hc
  subst hc
  split at h
  · cases h
    rename_i hn
    have : n = 48 ∨ n = 49 ∨ n = 50 ∨ n = 51 ∨ n = 52 ∨ n = 53 ∨ n = 54 ∨ n = 55 ∨ n = 56 ∨ n = 57 := by
      omega
    rcases this with rfl | rfl | rfl | rfl | rfl | rfl | rfl | rfl | rfl | rfl <;> decide
  · split at h
    · cases h
      rename_i hn
      have : n = 97 ∨ n = 98 ∨ n = 99 ∨ n = 100 ∨ n = 101 ∨ n = 102 := by omega
      rcases this with rfl | rfl | rfl | rfl | rfl | rfl <;> decide
    · split at h
      · cases h
        rename_i hn
        have : n = 65 ∨ n = 66 ∨ n = 67 ∨ n = 68 ∨ n = 69 ∨ n = 70 := by omega
        rcases this with rfl | rfl | rfl | rfl | rfl | rfl <;> decide
      · cases h

theorem noDigit_iff (r : List Char) : NoDigit r ↔ NotFirst (fun c => ∃ d, HexDigit c d) r := by
  cases r with
  | nil => exact Iff.rfl
  | cons c r =>
    simp only [NoDigit, NotFirst]
    constructor
    · rintro h ⟨d, hd⟩
      rw [hexVal_of hd] at h
      cases h
    · intro h
      cases e : hexVal c with
      | none => rfl
      | some d => exact absurd ⟨d, (hexVal_iff c d).mp e⟩ h

/-- What is left after the digits. -/
theorem readDigits_left {n v : Nat} {s : List Char} (h : HexFrom n s v) {r : List Char}
    (hr : NoDigit r) (p : Nat × Bool) (k : Nat) :
    (readDigits (s ++ r) p k).2 = (k + s.length, r) := by
  induction h generalizing k p with
  | nil =>
    cases r with
    | nil => rfl
    | cons c r =>
      simp only [NoDigit] at hr
      simp [readDigits, hr]
  | @cons n c d s v hd h' ih =>
    rw [List.cons_append]
    unfold readDigits
    rw [hexVal_of hd]
    simp only
    rw [ih, List.length_cons]
    congr 1
    omega

theorem readSign_sign {sign t : List Char} (hs : sign ∈ [[], ['-'], ['+']])
    (ht : sign = [] → NotFirst (fun c => c = '-' ∨ c = '+') t) :
    readSign (sign ++ t) = (decide (sign = ['-']), t) := by
  simp only [List.mem_cons, List.not_mem_nil, or_false] at hs
  rcases hs with rfl | rfl | rfl
  · rw [List.nil_append]
    cases t with
    | nil => rfl
    | cons c t =>
      have hc : ¬ (c = '-' ∨ c = '+') := ht rfl
      rw [readSign_other (fun e => hc (.inl e)) (fun e => hc (.inr e))]
      rfl
  · rfl
  · rfl

/-- A text without the prefix. -/
theorem readZero_plain {t : List Char} (h : ∀ u, t ≠ '0' :: 'x' :: u ∧ t ≠ '0' :: 'X' :: u) :
    (∃ u, t = '0' :: u ∧ readZero t = (true, u)) ∨ readZero t = (false, t) := by
  unfold readZero
  split
  · rename_i u; exact absurd rfl (h u).1
  · rename_i u; exact absurd rfl (h u).2
  · exact .inl ⟨_, rfl, rfl⟩
  · exact .inr rfl

/-- Digits behind a text without the prefix. -/
theorem digits_plain {ds r : List Char} {v : Nat} (h : HexFrom 0 ds v) (hr : NoDigit r)
    (h0 : ∀ u, ds ++ r ≠ '0' :: 'x' :: u ∧ ds ++ r ≠ '0' :: 'X' :: u) :
    ∃ z ds', readZero (ds ++ r) = (z, ds' ++ r) ∧ HexFrom 0 ds' v ∧ (z = true ∨ ds' ≠ [] ↔ ds ≠ []) := by
  rcases readZero_plain h0 with ⟨u, e, hz⟩ | hz
  · rw [hz]
    cases h with
    | nil =>
      have e : r = '0' :: u := e
      rw [e] at hr
      exact absurd hr (by simp [NoDigit, hexVal])
    | @cons _ c d ds _ hd h' =>
      rw [List.cons_append] at e
      injection e with e1 e2
      subst e1
      have := zero_digit hd
      subst this
      exact ⟨true, ds, by rw [← e2], h', by simp⟩
  · exact ⟨false, ds, hz, h, by simp⟩

/-- The value of digits which begin after a sign and a prefix. -/
theorem getHex_of {s t u ds r : List Char} {m z : Bool} {v : Nat} (h1 : readSign s = (m, t))
    (h2 : readZero t = (z, u)) (h3 : u = ds ++ r) (h : HexFrom 0 ds v) (hr : NoDigit r) :
    getHex s = (if ds = [] ∧ z = false then none else if 2 ^ 64 ≤ v then none
      else some (if m then (2 ^ 64 - v) % 2 ^ 64 else v), r) := by
  subst h3
  have hl := readDigits_left h hr (0, false) 0
  simp only [getHex, h1, h2]
  rw [hl]
  have e : ((0 + ds.length, r) : Nat × List Char).1 = 0 ↔ ds = [] := by simp
  simp only [e]
  by_cases hv : 2 ^ 64 ≤ v
  · rw [readDigits_big h (by decide) hv 0]
    simp [hv]
  · rw [readDigits_good h (by omega) hr 0]
    simp [hv]

theorem Number.getHex_eq {s r : List Char} {o : Option Nat} (h : Number s o r) : getHex s = (o, r) := by
  obtain ⟨hs, hp, hd, hr, h1, h2, h3, h4⟩ := h
  rename_i sign pre ds v
  have hr := (noDigit_iff r).mpr hr
  have key : ∀ {ds' : List Char} {z : Bool}, (z = true ∨ ds' ≠ [] ↔ ds ≠ []) →
      ((if ds' = [] ∧ z = false then none else if 2 ^ 64 ≤ v then none
        else some (if decide (sign = ['-']) = true then (2 ^ 64 - v) % 2 ^ 64 else v) : Option Nat), r) = (o, r) := by
    intro ds' z hz
    congr 1
    simp only [decide_eq_true_eq]
    by_cases hn : ds = []
    · have : ¬ (z = true ∨ ds' ≠ []) := fun c => hz.mp c hn
      rw [if_pos ⟨Classical.not_not.mp fun c => this (.inr c), by simpa using fun c => this (.inl c)⟩]
      exact (h3 (.inl hn)).symm
    · have hz := hz.mpr hn
      rw [if_neg (by
        rintro ⟨c1, c2⟩
        rcases hz with c | c
        · rw [c2] at c; cases c
        · exact c c1)]
      by_cases hv : 2 ^ 64 ≤ v
      · rw [if_pos hv, h3 (.inr hv)]
      · rw [if_neg hv, h4 hn (by omega)]
  rw [List.append_assoc, List.append_assoc]
  have hsign : readSign (sign ++ (pre ++ (ds ++ r))) = (decide (sign = ['-']), pre ++ (ds ++ r)) := by
    refine readSign_sign hs fun e => ?_
    simp only [List.mem_cons, List.not_mem_nil, or_false] at hp
    rcases hp with rfl | rfl | rfl
    · cases hd with
      | nil => exact h1 e rfl rfl
      | cons hd _ =>
        show ¬ _
        rintro (c | c)
        · exact (sign_ne hd).1 c
        · exact (sign_ne hd).2 c
    · show ¬ _; decide
    · show ¬ _; decide
  simp only [List.mem_cons, List.not_mem_nil, or_false] at hp
  rcases hp with rfl | rfl | rfl
  · obtain ⟨z, ds', e1, e2, e3⟩ := digits_plain hd hr (by
      intro u
      have hx : ∀ (c : Char), (c = 'x' ∨ c = 'X') → ds ++ r ≠ '0' :: c :: u := by
        intro c hc e
        cases hd with
        | nil =>
          have e : r = _ := e
          rw [e] at hr
          exact absurd hr (by simp [NoDigit, hexVal])
        | @cons _ q d ds _ hd h' =>
          rw [List.cons_append] at e
          injection e with e1 e2
          subst e1
          cases h' with
          | nil =>
            have e2 : r = _ := e2
            rw [e2] at h2
            exact h2 rfl rfl hc
          | @cons _ q d ds _ hd h' =>
            rw [List.cons_append] at e2
            injection e2 with e1 _
            subst e1
            have hq := hexVal_of hd
            rcases hc with rfl | rfl <;> (revert hq; simp [hexVal])
      exact ⟨hx _ (.inl rfl), hx _ (.inr rfl)⟩)
    rw [getHex_of hsign e1 rfl e2 hr]
    exact key e3
  · rw [getHex_of (z := false) (u := ds ++ r) hsign rfl rfl hd hr]
    exact key (by simp)
  · rw [getHex_of (z := false) (u := ds ++ r) hsign rfl rfl hd hr]
    exact key (by simp)

/-- The digits at the beginning of a text. -/
theorem digits_exist (t : List Char) (n : Nat) : ∃ ds r v, t = ds ++ r ∧ HexFrom n ds v ∧ NoDigit r := by
  induction t generalizing n with
  | nil => exact ⟨[], [], n, rfl, .nil, trivial⟩
  | cons c t ih =>
    cases h : hexVal c with
    | none => exact ⟨[], c :: t, n, rfl, .nil, h⟩
    | some d =>
      obtain ⟨ds, r, v, rfl, h1, h2⟩ := ih (16 * n + d)
      exact ⟨c :: ds, r, v, rfl, .cons ((hexVal_iff c d).mp h) h1, h2⟩

/-- Every text begins with a number in this sense. -/
theorem number_exists (s : List Char) : ∃ o r, Number s o r := by
  have hsign : ∃ sign t, s = sign ++ t ∧ sign ∈ [[], ['-'], ['+']] ∧
      (sign = [] → NotFirst (fun c => c = '-' ∨ c = '+') t) := by
    cases s with
    | nil => exact ⟨[], [], rfl, by simp, fun _ => trivial⟩
    | cons c s =>
      by_cases h1 : c = '-'
      · subst h1; exact ⟨['-'], s, rfl, by simp, nofun⟩
      · by_cases h2 : c = '+'
        · subst h2; exact ⟨['+'], s, rfl, by simp, nofun⟩
        · exact ⟨[], c :: s, rfl, by simp, fun _ => fun h => h.elim h1 h2⟩
  obtain ⟨sign, t, rfl, h1, h2⟩ := hsign
  have hpre : ∃ pre u, t = pre ++ u ∧ pre ∈ [[], ['0', 'x'], ['0', 'X']] ∧
      (pre = [] → ∀ w, u ≠ '0' :: 'x' :: w ∧ u ≠ '0' :: 'X' :: w) := by
    by_cases c1 : ∃ w, t = '0' :: 'x' :: w
    · obtain ⟨w, rfl⟩ := c1; exact ⟨['0', 'x'], w, rfl, by simp, nofun⟩
    · by_cases c2 : ∃ w, t = '0' :: 'X' :: w
      · obtain ⟨w, rfl⟩ := c2; exact ⟨['0', 'X'], w, rfl, by simp, nofun⟩
      · exact ⟨[], t, rfl, by simp, fun _ w => ⟨fun e => c1 ⟨w, e⟩, fun e => c2 ⟨w, e⟩⟩⟩
  obtain ⟨pre, u, rfl, h3, h4⟩ := hpre
  obtain ⟨ds, r, v, rfl, h5, h6⟩ := digits_exist u 0
  rw [← List.append_assoc, ← List.append_assoc]
  refine ⟨if ds = [] ∨ 2 ^ 64 ≤ v then none else
    some (if sign = ['-'] then (2 ^ 64 - v) % 2 ^ 64 else v), r, .mk h1 h3 h5 ((noDigit_iff r).mp h6) ?_ ?_ ?_ ?_⟩
  · intro e1 e2 e3
    subst e2 e3
    exact h2 e1
  · intro e1 e2
    subst e2
    cases r with
    | nil => trivial
    | cons c r =>
      rintro (rfl | rfl)
      · exact (h4 e1 r).1 rfl
      · exact (h4 e1 r).2 rfl
  · intro h; rw [if_pos h]
  · intro h h'
    rw [if_neg fun c => c.elim h fun c => by omega]

/-- The library reads numbers. -/
theorem getHex_iff (s : List Char) (o : Option Nat) (r : List Char) :
    getHex s = (o, r) ↔ Number s o r := by
  refine ⟨fun h => ?_, Number.getHex_eq⟩
  obtain ⟨o', r', h'⟩ := number_exists s
  rw [h'.getHex_eq] at h
  cases h
  exact h'

/-! ## Files -/

theorem dropWhile_spaces {sp s : List Char} (h1 : ∀ c ∈ sp, Space c) (h2 : NotFirst Space s) :
    (sp ++ s).dropWhile isSpaceC = s := by
  induction sp with
  | nil =>
    cases s with
    | nil => rfl
    | cons c s =>
      rw [List.nil_append, List.dropWhile_cons_of_neg]
      intro h
      exact h2 ((space_iff c).mp h)
  | cons c sp ih =>
    rw [List.cons_append, List.dropWhile_cons_of_pos ((space_iff c).mpr (h1 c (by simp)))]
    exact ih fun c hc => h1 c (by simp [hc])

theorem spaces_exist (s : List Char) : ∃ sp t, s = sp ++ t ∧ (∀ c ∈ sp, Space c) ∧ NotFirst Space t := by
  induction s with
  | nil => exact ⟨[], [], rfl, nofun, trivial⟩
  | cons c s ih =>
    by_cases h : isSpaceC c = true
    · obtain ⟨sp, t, rfl, h1, h2⟩ := ih
      refine ⟨c :: sp, t, rfl, ?_, h2⟩
      intro q hq
      rcases List.mem_cons.mp hq with rfl | hq
      · exact (space_iff _).mp h
      · exact h1 q hq
    · exact ⟨[], c :: s, rfl, nofun, fun h' => h ((space_iff c).mpr h')⟩

theorem Reads.eq_readSkips {s : List Char} {l : List Nat} (h : Reads s l) : readSkips s = l := by
  induction h with
  | stop h1 h2 h3 =>
    have e : extractAddr _ = _ := (congrArg getHex (dropWhile_spaces h1 h2)).trans h3.getHex_eq
    rw [readSkips]
    split
    · rfl
    · rename_i h'; rw [e] at h'; cases h'
  | next h1 h2 h3 _ ih =>
    have e : extractAddr _ = _ := (congrArg getHex (dropWhile_spaces h1 h2)).trans h3.getHex_eq
    rw [readSkips]
    split
    · rename_i h'; rw [e] at h'; cases h'
    · rename_i v' h'
      rw [e] at h'
      cases h'
      rw [e]
      exact congrArg _ ih

theorem reads_exists (s : List Char) : ∃ l, Reads s l := by
  generalize hn : s.length = n
  induction n using Nat.strongRecOn generalizing s with
  | ind n ih =>
    obtain ⟨sp, t, rfl, h1, h2⟩ := spaces_exist s
    obtain ⟨o, r, h3⟩ := number_exists t
    cases o with
    | none => exact ⟨[], .stop h1 h2 h3⟩
    | some v =>
      have e : extractAddr (sp ++ t) = _ := (congrArg getHex (dropWhile_spaces h1 h2)).trans h3.getHex_eq
      have hl := extractAddr_len (s := sp ++ t) (v := v) (by rw [e])
      rw [e, hn] at hl
      obtain ⟨l, h4⟩ := ih _ hl r rfl
      exact ⟨v :: l, .next h1 h2 h3 h4⟩

/-- C75.  From every file exactly the numbers up to the first text which is not one are
read. -/
theorem C75_reads (s : List Char) (l : List Nat) : readSkips s = l ↔ Reads s l := by
  refine ⟨fun h => ?_, Reads.eq_readSkips⟩
  obtain ⟨l', h'⟩ := reads_exists s
  rw [h'.eq_readSkips] at h
  subst h
  exact h'

/-- C75.  In light mode with safe function elision, whatever the file, a function not classified
safe is left alone exactly if its address is among these numbers. -/
theorem C75_skips {s : List Char} {l : List Nat} (hs : Reads s l) {fl : InstrFlags}
    {co : CodeObj} {an : Nat → Option (FuncSummary × List WriteInfo)} {f : BFunc} {st st' : Stats}
    {p : Plan} (h : instrumentFunction fl (readSkips s) co an f st = some (p, st'))
    (hl : fl.shadowStack = "light") (hd : fl.disableSfe = false)
    (hn : ∀ s, summaryOf fl an f = some s → s.safe = false) :
    p.kind = .skipped ↔ f.base ∈ l := by
  rw [hs.eq_readSkips] at h
  rw [((C40_strategy h).1 hl).1]
  constructor
  · rintro ⟨_, ⟨s, h1, h2⟩ | h'⟩
    · rw [hn s h1] at h2; cases h2
    · exact h'
  · exact fun h' => ⟨hd, .inr h'⟩

/-- The file ` +0X401000-0x,`: two numbers without a space between them, the second of which has
no digits. -/
example : Reads ([' '] ++ (['+'] ++ ['0', 'X'] ++ ['4', '0', '1', '0', '0', '0'] ++ ['-', '0', 'x', ','])) [0x401000] := by
  refine .next (r := ['-', '0', 'x', ',']) (by unfold Space; decide) (show ¬ _ by unfold Space; decide)
    (.mk (by decide) (by decide) hexFrom_example ?_ nofun nofun (by decide) (by decide)) ?_
  · exact (noDigit_iff _).mp (show hexVal _ = none by decide)
  · refine .stop (sp := []) (s := ['-'] ++ ['0', 'x'] ++ [] ++ [',']) nofun (show ¬ _ by unfold Space; decide)
      (.mk (by decide) (by decide) .nil ?_ nofun nofun (fun _ => rfl) nofun)
    exact (noDigit_iff _).mp (show hexVal _ = none by decide)

end Verif
