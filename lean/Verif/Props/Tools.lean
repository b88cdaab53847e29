import Verif.Tools

/-!
# C48 and C50: paths and trace compression
-/

namespace Verif

/-! ## C48 -/

/-- The parts, with the delimiter between them. -/
def joinWith (d : Char) : List (List Char) → List Char
  | [] => []
  | [p] => p
  | p :: q :: ps => p ++ d :: joinWith d (q :: ps)

theorem getline_cases (d : Char) : ∀ s : List Char,
    (s = [] ∧ getline d s = none) ∨
    (∃ item, s = item ∧ item ≠ [] ∧ d ∉ item ∧ getline d s = some (item, none)) ∨
    (∃ item rest, s = item ++ d :: rest ∧ d ∉ item ∧ getline d s = some (item, some rest)) := by
  intro s
  induction s with
  | nil => exact .inl ⟨rfl, rfl⟩
  | cons c s ih =>
    by_cases hc : c = d
    · subst hc
      exact .inr (.inr ⟨[], s, rfl, by simp, by simp [getline]⟩)
    · rcases ih with ⟨rfl, h⟩ | ⟨item, rfl, h1, h2, h⟩ | ⟨item, rest, rfl, h2, h⟩
      · exact .inr (.inl ⟨[c], rfl, by simp, by simpa using Ne.symm hc, by rw [getline, if_neg hc, h]⟩)
      · refine .inr (.inl ⟨c :: s, rfl, by simp, ?_, by rw [getline, if_neg hc, h]⟩)
        simpa using ⟨Ne.symm hc, h2⟩
      · refine .inr (.inr ⟨c :: item, rest, rfl, ?_, by rw [getline, if_neg hc, h]⟩)
        simpa using ⟨Ne.symm hc, h2⟩

theorem split_nil (d : Char) : split d [] = [] := by
  rw [split]
  split
  · rfl
  all_goals (rename_i h; cases h)

theorem split_single {d : Char} {s : List Char} (h1 : s ≠ []) (h2 : d ∉ s) : split d s = [s] := by
  rcases getline_cases d s with ⟨h, _⟩ | ⟨item, rfl, _, _, h⟩ | ⟨item, rest, rfl, _, _⟩
  · exact absurd h h1
  · rw [split]
    split
    all_goals (rename_i h'; rw [h] at h'; cases h')
    rfl
  · exact absurd (by simp) h2

theorem split_delim {d : Char} (item rest : List Char) (h2 : d ∉ item) :
    split d (item ++ d :: rest) = item :: split d rest := by
  rcases getline_cases d (item ++ d :: rest) with ⟨h, _⟩ | ⟨i, hi, _, h', h⟩ | ⟨i, r, hi, h', h⟩
  · simp at h
  · rw [← hi] at h'; exact absurd (by simp) h'
  · have e : i = item ∧ r = rest := by
      clear h
      induction item generalizing i with
      | nil =>
        cases i with
        | nil => exact ⟨rfl, by simpa using hi.symm⟩
        | cons x i =>
          rw [List.cons_append, List.nil_append] at hi
          rw [(List.cons.inj hi).1] at h'
          simp at h'
      | cons y item ih =>
        cases i with
        | nil =>
          rw [List.cons_append, List.nil_append] at hi
          rw [(List.cons.inj hi).1] at h2
          simp at h2
        | cons x i =>
          rw [List.cons_append, List.cons_append] at hi
          obtain ⟨rfl, hi'⟩ := List.cons.inj hi
          obtain ⟨rfl, rfl⟩ := ih (by simp at h2; exact h2.2) i hi' (by simp at h'; exact h'.2)
          exact ⟨rfl, rfl⟩
    obtain ⟨rfl, rfl⟩ := e
    rw [split]
    split
    all_goals (rename_i h'; rw [h] at h'; cases h')
    rfl

/-- Strings are decomposed at the first delimiter. -/
theorem delim_cases (d : Char) (s : List Char) :
    d ∉ s ∨ ∃ item rest, s = item ++ d :: rest ∧ d ∉ item := by
  rcases getline_cases d s with ⟨rfl, _⟩ | ⟨item, rfl, _, h, _⟩ | ⟨item, rest, h, h', _⟩
  · exact .inl (by simp)
  · exact .inl h
  · exact .inr ⟨item, rest, h, h'⟩

theorem split_strong (d : Char) : ∀ (n : Nat) (s : List Char), s.length ≤ n →
    (∀ p ∈ split d s, d ∉ p) ∧ (s = [] ↔ split d s = []) ∧
    (joinWith d (split d s) = s ∨ s = joinWith d (split d s) ++ [d]) ∧
    (s.getLast? ≠ some d → joinWith d (split d s) = s) ∧
    (s.getLast? = some d → s = joinWith d (split d s) ++ [d]) := by
  intro n
  induction n with
  | zero =>
    intro s hs
    have : s = [] := List.length_eq_zero_iff.mp (by omega)
    subst this
    simp [split_nil, joinWith]
  | succ n ih =>
    intro s hs
    rcases delim_cases d s with h | ⟨item, rest, rfl, h⟩
    · by_cases h0 : s = []
      · subst h0; simp [split_nil, joinWith]
      · rw [split_single h0 h]
        refine ⟨by simpa using h, by simp [h0], .inl rfl, fun _ => rfl, fun hl => ?_⟩
        exact absurd (List.mem_of_getLast? hl) h
    · rw [split_delim item rest h]
      simp only [List.length_append, List.length_cons] at hs
      obtain ⟨i1, i2, i3, i4, i5⟩ := ih rest (by omega)
      refine ⟨?_, by simp, ?_⟩
      · intro p hp
        rcases List.mem_cons.mp hp with rfl | hp
        · exact h
        · exact i1 p hp
      · cases hr : split d rest with
        | nil =>
          have : rest = [] := i2.mpr hr
          subst this
          simp [joinWith]
        | cons q qs =>
          have hne : rest ≠ [] := fun e => by rw [i2.mp e] at hr; cases hr
          rw [hr] at i3 i4 i5
          have hl : (item ++ d :: rest).getLast? = rest.getLast? := by
            cases rest with
            | nil => exact absurd rfl hne
            | cons x xs => simp [List.getLast?_append, List.getLast?_cons]
          rw [hl]
          refine ⟨?_, fun h => ?_, fun h => ?_⟩
          · rcases i3 with e | e
            · exact .inl (by rw [joinWith, e])
            · refine .inr ?_
              rw [joinWith]
              conv => lhs; rw [e]
              simp
          · rw [joinWith, i4 h]
          · rw [joinWith]
            conv => lhs; rw [i5 h]
            simp

/-- **C48.** No part of a split string contains the delimiter; joining the parts gives the string
back, without its last delimiter if it ends with one; only the empty string has no parts. -/
theorem C48_split (d : Char) (s : List Char) :
    (∀ p ∈ split d s, d ∉ p) ∧ (split d s = [] ↔ s = []) ∧
    s = joinWith d (split d s) ++ (if s.getLast? = some d then [d] else []) := by
  obtain ⟨h1, h2, _, h4, h5⟩ := split_strong d s.length s (Nat.le_refl _)
  refine ⟨h1, h2.symm, ?_⟩
  split
  · rename_i h; exact h5 h
  · rename_i h; rw [List.append_nil]; exact (h4 h).symm

theorem split_append (d : Char) (base : List Char) (hb : d ∉ base) :
    ∀ (n : Nat) (dir : List Char), dir.length ≤ n →
      split d (dir ++ d :: (base ++ [d])) = split d (dir ++ [d]) ++ [base] ∧
      (base ≠ [] → split d (dir ++ d :: base) = split d (dir ++ [d]) ++ [base]) := by
  have hbd : split d (base ++ [d]) = [base] := by rw [split_delim base [] hb, split_nil]
  intro n
  induction n with
  | zero =>
    intro dir hd
    have : dir = [] := List.length_eq_zero_iff.mp (by omega)
    subst this
    have e0 : split d [d] = [[]] := by
      have := split_delim (d := d) [] [] (by simp)
      rw [List.nil_append, split_nil] at this; exact this
    refine ⟨?_, fun h => ?_⟩
    · have := split_delim (d := d) [] (base ++ [d]) (by simp)
      rw [List.nil_append] at this
      rw [List.nil_append, this, hbd, List.nil_append, e0]; rfl
    · have := split_delim (d := d) [] base (by simp)
      rw [List.nil_append] at this
      rw [List.nil_append, this, split_single h hb, List.nil_append, e0]; rfl
  | succ n ih =>
    intro dir hd
    rcases delim_cases d dir with h | ⟨item, rest, rfl, h⟩
    · rw [split_delim dir [] h, split_nil, split_delim dir _ h, hbd]
      refine ⟨rfl, fun h0 => ?_⟩
      rw [split_delim dir base h, split_single h0 hb]; rfl
    · simp only [List.length_append, List.length_cons] at hd
      obtain ⟨i1, i2⟩ := ih rest (by omega)
      simp only [List.append_assoc, List.cons_append]
      rw [split_delim item _ h, split_delim item _ h, i1]
      refine ⟨by rw [List.cons_append], fun h0 => ?_⟩
      rw [split_delim item _ h, i2 h0, List.cons_append]

/-- **C48, file names.** The file name is what follows the last slash, also if one more slash
follows it; a path without slash is its own file name; exactly the empty path has none (there the
program reads outside of a vector). -/
theorem C48_file_name (dir base : List Char) (hb : '/' ∉ base) :
    fileName (dir ++ '/' :: (base ++ ['/'])) = some base ∧
    (base ≠ [] → fileName (dir ++ '/' :: base) = some base ∧ fileName base = some base) ∧
    ∀ s, fileName s = none ↔ s = [] := by
  obtain ⟨h1, h2⟩ := split_append '/' base hb dir.length dir (Nat.le_refl _)
  refine ⟨?_, fun h => ⟨?_, ?_⟩, fun s => ?_⟩
  · rw [fileName, h1]; simp
  · rw [fileName, h2 h]; simp
  · rw [fileName, split_single h hb]; rfl
  · rw [fileName, List.getLast?_eq_none_iff]
    exact (C48_split '/' s).2.1

example : split '/' "/usr/lib//x.so".toList =
    ["".toList, "usr".toList, "lib".toList, "".toList, "x.so".toList] ∧
    fileName "/usr/lib//x.so".toList = some "x.so".toList := by
  have e : ∀ s, s = split '/' "/usr/lib//x.so".toList →
      s = ["".toList, "usr".toList, "lib".toList, "".toList, "x.so".toList] := by
    intro s hs
    rw [hs]
    show split '/' ([] ++ '/' :: ("usr".toList ++ '/' :: ("lib".toList ++ '/' :: ([] ++ '/' :: "x.so".toList)))) = _
    rw [split_delim _ _ (by decide), split_delim _ _ (by decide), split_delim _ _ (by decide),
      split_delim _ _ (by decide), split_single (by decide) (by decide)]
    rfl
  rw [fileName, e _ rfl]
  exact ⟨rfl, rfl⟩

/-! ## C50 -/

variable {α : Type} [DecidableEq α]

/-- No two neighbours are equal. -/
def NoRepeat : List α → Prop
  | [] => True
  | [_] => True
  | x :: y :: l => x ≠ y ∧ NoRepeat (y :: l)

/-- `l` is `r` with every element repeated some positive number of times. -/
inductive Stretch : List α → List α → Prop
  | nil : Stretch [] []
  | cons {l r : List α} (x : α) (n : Nat) : Stretch l r → Stretch (List.replicate (n + 1) x ++ l) (x :: r)

/-- What the loop produces given that `prev` came before. -/
theorem cr1Loop_spec : ∀ (l : List α) (prev : Option α),
    (∃ n l', l = (match prev with | some p => List.replicate n p | none => []) ++ l' ∧
      Stretch l' (cr1Loop prev l)) ∧
    NoRepeat (cr1Loop prev l) ∧ (∀ p, prev = some p → (cr1Loop prev l).head? ≠ some p) := by
  intro l
  induction l with
  | nil =>
    intro prev
    refine ⟨⟨0, [], by cases prev <;> rfl, .nil⟩, trivial, fun p _ => by simp [cr1Loop]⟩
  | cons x l ih =>
    intro prev
    obtain ⟨⟨n, l', e, hs⟩, h2, h3⟩ := ih (some x)
    by_cases h : some x = prev
    · subst h
      rw [cr1Loop, if_neg (by simp)]
      refine ⟨⟨n + 1, l', ?_, hs⟩, h2, h3⟩
      show x :: l = List.replicate (n + 1) x ++ l'
      rw [e]; rfl
    · rw [cr1Loop, if_pos h]
      refine ⟨⟨0, x :: l, by cases prev <;> rfl, ?_⟩, ?_, ?_⟩
      · rw [show x :: l = List.replicate (n + 1) x ++ l' from by rw [e]; rfl]
        exact .cons x n hs
      · cases hr : cr1Loop (some x) l with
        | nil => trivial
        | cons y r =>
          rw [hr] at h2
          refine ⟨fun hxy => h3 x rfl (by rw [hr, hxy]; rfl), h2⟩
      · rintro p rfl
        simp only [List.head?_cons]
        exact h

/-- **C50.** The first compression is the trace with each stretch of equal events replaced by one
event: it has no equal neighbours and the trace is obtained from it by repeating events. -/
theorem C50_compressed (l : List α) : NoRepeat (cr1 l) ∧ Stretch l (cr1 l) := by
  obtain ⟨⟨n, l', e, hs⟩, h2, _⟩ := cr1Loop_spec l none
  rw [show l = l' from e]
  exact ⟨by rw [← show l = l' from e]; exact h2, by rw [← show l = l' from e] at hs ⊢; exact hs⟩

omit [DecidableEq α] in
theorem Stretch.head {l r : List α} (h : Stretch l r) : l.head? = r.head? := by
  cases h with
  | nil => rfl
  | cons x n _ => rfl

omit [DecidableEq α] in
/-- There is only one such trace. -/
theorem stretch_unique {l r : List α} (h : Stretch l r) :
    ∀ {r' : List α}, NoRepeat r → NoRepeat r' → Stretch l r' → r = r' := by
  induction h with
  | nil =>
    intro r' _ _ h'
    generalize hl : ([] : List α) = l at h'
    cases h' with
    | nil => rfl
    | cons x n h' => simp [List.replicate_succ] at hl
  | @cons l r x n h ih =>
    intro r' hr hr' h'
    generalize hl : List.replicate (n + 1) x ++ l = l0 at h'
    cases h' with
    | nil => simp [List.replicate_succ] at hl
    | @cons l1 r1 y m h' =>
      have hxy : x = y := by
        rw [List.replicate_succ, List.replicate_succ] at hl
        exact (List.cons.inj hl).1
      subst hxy
      -- equal numbers of repetitions, because the rest starts with something else
      have nh : ∀ {a b : List α}, NoRepeat (x :: b) → Stretch a b → a.head? ≠ some x := by
        intro a b hb hs
        rw [hs.head]
        cases b with
        | nil => simp
        | cons z b => simp only [List.head?_cons, ne_eq, Option.some.injEq]; exact fun e => hb.1 e.symm
      have key : ∀ (n m : Nat) (a b : List α), a.head? ≠ some x → b.head? ≠ some x →
          List.replicate n x ++ a = List.replicate m x ++ b → a = b := by
        intro n
        induction n with
        | zero =>
          intro m a b ha _ e
          cases m with
          | zero => simpa using e
          | succ m =>
            rw [List.replicate_zero, List.nil_append, List.replicate_succ, List.cons_append] at e
            rw [e] at ha
            simp at ha
        | succ n ih =>
          intro m a b ha hb e
          cases m with
          | zero =>
            rw [List.replicate_zero, List.nil_append, List.replicate_succ, List.cons_append] at e
            rw [← e] at hb
            simp at hb
          | succ m =>
            rw [List.replicate_succ, List.replicate_succ, List.cons_append, List.cons_append] at e
            exact ih m a b ha hb (List.cons.inj e).2
      have e : l = l1 := key _ _ _ _ (nh hr h) (nh hr' h') hl
      subst e
      have tl : ∀ {b : List α}, NoRepeat (x :: b) → NoRepeat b := by
        intro b hb
        cases b with
        | nil => trivial
        | cons z b => exact hb.2
      rw [ih (tl hr) (tl hr') h']

omit [DecidableEq α] in
theorem stretch_refl : ∀ l : List α, Stretch l l
  | [] => .nil
  | x :: l => by
    have := Stretch.cons x 0 (stretch_refl l)
    exact this

omit [DecidableEq α] in
theorem Stretch.mem {l r : List α} (h : Stretch l r) (x : α) : x ∈ l ↔ x ∈ r := by
  induction h with
  | nil => rfl
  | cons y n _ ih => simp [List.mem_append, List.mem_replicate, ih]

omit [DecidableEq α] in
theorem Stretch.length {l r : List α} (h : Stretch l r) : r.length ≤ l.length := by
  induction h with
  | nil => exact Nat.le_refl _
  | cons y n _ ih => simp only [List.length_append, List.length_replicate, List.length_cons]; omega

omit [DecidableEq α] in
theorem Stretch.last {l r : List α} (h : Stretch l r) : l.getLast? = r.getLast? := by
  induction h with
  | nil => rfl
  | @cons l r y n h ih =>
    rw [List.getLast?_append, ih]
    cases r with
    | nil => simp [List.getLast?_replicate]
    | cons z r => simp [List.getLast?_cons]

/-- **C50, consequences.** First and last event, the set of events are kept, the trace does not get
longer, and compressing again changes nothing. -/
theorem C50_faithful (l : List α) :
    (cr1 l).head? = l.head? ∧ (cr1 l).getLast? = l.getLast? ∧ (∀ x, x ∈ cr1 l ↔ x ∈ l) ∧
    (cr1 l).length ≤ l.length ∧ cr1 (cr1 l) = cr1 l := by
  obtain ⟨h1, h2⟩ := C50_compressed l
  obtain ⟨h3, h4⟩ := C50_compressed (cr1 l)
  exact ⟨h2.head.symm, h2.last.symm, fun x => (h2.mem x).symm, h2.length,
    stretch_unique h4 h3 h1 (stretch_refl _)⟩

/-- The events of `l` that differ from the two before them; `back` has what came before, the latest
first. -/
def distinctFromTwo : List α → List α → List α
  | _, [] => []
  | back, x :: l => (if x ∈ back.take 2 then [] else [x]) ++ distinctFromTwo (x :: back) l

theorem cr2Loop_spec : ∀ (l back : List α),
    cr2Loop (back.take 2).reverse l = distinctFromTwo back l := by
  intro l
  induction l with
  | nil => intro back; rfl
  | cons x l ih =>
    intro back
    have e : (let aset' := (back.take 2).reverse ++ [x]
        if aset'.length > 2 then aset'.tail else aset') = ((x :: back).take 2).reverse := by
      match back with
      | [] => rfl
      | [_] => rfl
      | a :: b :: l => rfl
    rw [cr2Loop]
    simp only at e
    simp only [e, ih (x :: back), List.mem_reverse, distinctFromTwo]
    by_cases h : x ∈ back.take 2 <;> simp [h]

/-- **C50, the windowed variant** keeps exactly the events different from the two before them. -/
theorem C50_windowed (l : List α) : cr2 l = distinctFromTwo [] l := cr2Loop_spec l []

theorem distinct_sub : ∀ (l back : List α), (distinctFromTwo back l).Sublist l := by
  intro l
  induction l with
  | nil => intro back; exact .slnil
  | cons x l ih =>
    intro back
    rw [distinctFromTwo]
    split
    · exact (ih _).cons _
    · exact (ih _).cons_cons _

theorem distinct_mem : ∀ (l back : List α) (x : α), x ∈ l → x ∈ distinctFromTwo back l ∨ x ∈ back := by
  intro l
  induction l with
  | nil => intro back x h; cases h
  | cons y l ih =>
    intro back x h
    rw [distinctFromTwo]
    by_cases hy : y ∈ back.take 2
    · simp only [hy, if_true, List.nil_append]
      rcases List.mem_cons.mp h with rfl | h
      · exact .inr (List.mem_of_mem_take hy)
      · rcases ih (y :: back) x h with h | h
        · exact .inl h
        · rcases List.mem_cons.mp h with rfl | h
          · exact .inr (List.mem_of_mem_take hy)
          · exact .inr h
    · simp only [hy, if_false]
      rcases List.mem_cons.mp h with rfl | h
      · exact .inl (by simp)
      · rcases ih (y :: back) x h with h | h
        · exact .inl (by simp [h])
        · rcases List.mem_cons.mp h with rfl | h
          · exact .inl (by simp)
          · exact .inr h

/-- The windowed variant keeps a subsequence with the same set of events and the same first
event. -/
theorem C50_windowed_faithful (l : List α) :
    (cr2 l).Sublist l ∧ (∀ x, x ∈ cr2 l ↔ x ∈ l) ∧ (cr2 l).length ≤ l.length ∧
    (cr2 l).head? = l.head? := by
  rw [C50_windowed]
  have hs := distinct_sub l []
  refine ⟨hs, fun x => ⟨fun h => hs.subset h, fun h => ?_⟩, hs.length_le, ?_⟩
  · rcases distinct_mem l [] x h with h | h
    · exact h
    · cases h
  · cases l <;> simp [distinctFromTwo]

/-- It can leave equal neighbours, and is then not idempotent. -/
theorem C50_windowed_not_idempotent : ∃ l : List Nat, cr2 l = [1, 2, 2] ∧ cr2 (cr2 l) = [1, 2] :=
  ⟨[1, 2, 1, 1, 2], by decide⟩

/-- The statistics are defined exactly for non-empty traces. -/
theorem C50_ratio (l : List α) : (ratio (cr1 l).length l.length = none ↔ l = []) ∧
    (ratio (cr2 l).length l.length = none ↔ l = []) := by
  constructor
  all_goals
    unfold ratio
    split
    · rename_i h; simpa using List.length_eq_zero_iff.mp h
    · rename_i h; simpa using fun e => h (by rw [e]; rfl)

example : cr1 ["f", "f", "g", "f"] = ["f", "g", "f"] ∧ cr2 ["f", "f", "g", "f"] = ["f", "g"] := by decide

end Verif
