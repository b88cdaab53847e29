import Verif.Plot
import Verif.ListLemmas

/-!
# C82 and C83: the numbers which are plotted, and their order
-/

namespace Verif

/-! ## Specification -/

/-- The overhead of an iteration, in per cent. -/
def IsOverhead (base peak o : Rat) : Prop := o * base = (peak - base) * 100

/-- At least half of the values are at most `m`, and at least half are at least `m`. -/
def IsMedian (m : Rat) (l : List Rat) : Prop :=
  l.length ≤ 2 * l.countP (fun x => decide (x ≤ m)) ∧
    l.length ≤ 2 * l.countP (fun x => decide (m ≤ x))

/-- A row of the result file begins the full table. -/
def FullRow (row : List Char) : Prop := "Full Results Table".toList <:+: row

/-- A row begins the other table. -/
def SelectedRow (row : List Char) : Prop := "Selected Results Table".toList <:+: row

/-! ## Overheads -/

theorem plotOverheads_some {l : List (Rat × Rat)} :
    (∃ r, plotOverheads l = some r) ↔ ∀ p ∈ l, p.1 ≠ 0 := by
  induction l with
  | nil => simp [plotOverheads]
  | cons p l ih =>
    obtain ⟨b, k⟩ := p
    unfold plotOverheads
    by_cases h : b = 0
    · simp [h]
    · simp only [h, if_false, Option.map_eq_some_iff, List.mem_cons, forall_eq_or_imp, ne_eq,
        not_false_eq_true, true_and]
      rw [← ih]
      constructor
      · rintro ⟨r, r', h1, -⟩; exact ⟨r', h1⟩
      · rintro ⟨r, h1⟩; exact ⟨_, r, h1, rfl⟩

/-- Each overhead is that of its iteration. -/
theorem plotOverheads_spec {l : List (Rat × Rat)} {r : List Rat} (h : plotOverheads l = some r) :
    r.length = l.length ∧ ∀ (i : Nat) (p : Rat × Rat) (o : Rat), l[i]? = some p → r[i]? = some o → IsOverhead p.1 p.2 o := by
  induction l generalizing r with
  | nil => cases h; exact ⟨rfl, nofun⟩
  | cons q l ih =>
    obtain ⟨b, k⟩ := q
    unfold plotOverheads at h
    split at h
    · cases h
    · rename_i hb
      obtain ⟨r', h1, rfl⟩ := Option.map_eq_some_iff.mp h
      obtain ⟨h2, h3⟩ := ih h1
      refine ⟨by simp [h2], fun i p o hp ho => ?_⟩
      cases i with
      | zero =>
        simp only [List.getElem?_cons_zero, Option.some.injEq] at hp ho
        subst hp ho
        exact Rat.div_mul_cancel hb
      | succ i =>
        simp only [List.getElem?_cons_succ] at hp ho
        exact h3 i p o hp ho

/-- The instrumented program is slower exactly if the overhead is positive. -/
theorem overhead_pos {base peak o : Rat} (hb : 0 < base) (h : IsOverhead base peak o) :
    0 < o ↔ base < peak := by
  unfold IsOverhead at h
  constructor
  · intro ho
    have := Rat.mul_pos ho hb
    grind
  · intro hk
    rcases Rat.le_total (a := o) (b := 0) with hc | hc
    · have := Rat.mul_le_mul_of_nonneg_right hc (Rat.le_of_lt hb)
      grind
    · rcases Rat.le_iff_lt_or_eq.mp hc with h1 | h1
      · exact h1
      · subst h1; grind

theorem pyMin_spec {l : List Rat} {m : Rat} (h : pyMin l = some m) : m ∈ l ∧ ∀ x ∈ l, m ≤ x := by
  cases l with
  | nil => cases h
  | cons x l =>
    simp only [pyMin, Option.some.injEq] at h
    subst h
    induction l generalizing x with
    | nil => simp
    | cons y l ih =>
      simp only [List.foldl_cons]
      by_cases hy : y < x
      · rw [if_pos hy]
        obtain ⟨h1, h2⟩ := ih y
        refine ⟨List.mem_cons_of_mem _ h1, fun z hz => ?_⟩
        rcases List.mem_cons.mp hz with rfl | hz
        · exact Rat.le_trans (h2 y (by simp)) (Rat.le_of_lt hy)
        · exact h2 z hz
      · rw [if_neg hy]
        obtain ⟨h1, h2⟩ := ih x
        have h3 := h2 x (by simp)
        refine ⟨?_, fun z hz => ?_⟩
        · rcases List.mem_cons.mp h1 with h1 | h1
          · rw [h1]; simp
          · exact List.mem_cons_of_mem _ (List.mem_cons_of_mem _ h1)
        · rcases List.mem_cons.mp hz with rfl | hz
          · exact h3
          · rcases List.mem_cons.mp hz with rfl | hz
            · grind
            · exact h2 z (List.mem_cons_of_mem _ hz)

theorem pyMax_spec {l : List Rat} {m : Rat} (h : pyMax l = some m) : m ∈ l ∧ ∀ x ∈ l, x ≤ m := by
  cases l with
  | nil => cases h
  | cons x l =>
    simp only [pyMax, Option.some.injEq] at h
    subst h
    induction l generalizing x with
    | nil => simp
    | cons y l ih =>
      simp only [List.foldl_cons]
      by_cases hy : x < y
      · rw [if_pos hy]
        obtain ⟨h1, h2⟩ := ih y
        refine ⟨List.mem_cons_of_mem _ h1, fun z hz => ?_⟩
        rcases List.mem_cons.mp hz with rfl | hz
        · exact Rat.le_trans (Rat.le_of_lt hy) (h2 y (by simp))
        · exact h2 z hz
      · rw [if_neg hy]
        obtain ⟨h1, h2⟩ := ih x
        have h3 := h2 x (by simp)
        refine ⟨?_, fun z hz => ?_⟩
        · rcases List.mem_cons.mp h1 with h1 | h1
          · rw [h1]; simp
          · exact List.mem_cons_of_mem _ (List.mem_cons_of_mem _ h1)
        · rcases List.mem_cons.mp hz with rfl | hz
          · exact h3
          · rcases List.mem_cons.mp hz with rfl | hz
            · grind
            · exact h2 z (List.mem_cons_of_mem _ hz)

/-- In a sorted list the elements up to a place are at most the one there, and those from it on at
least. -/
theorem sorted_counts {s : List Rat} (h : s.Pairwise (· ≤ ·)) {i : Nat} {x : Rat}
    (hx : s[i]? = some x) {lo hi : Rat} (hlo : lo ≤ x) (hhi : x ≤ hi) :
    i + 1 ≤ s.countP (fun y => decide (y ≤ hi)) ∧ s.length - i ≤ s.countP (fun y => decide (lo ≤ y)) := by
  induction s generalizing i with
  | nil => cases hx
  | cons a s ih =>
    obtain ⟨h1, h2⟩ := List.pairwise_cons.mp h
    cases i with
    | zero =>
      simp only [List.getElem?_cons_zero, Option.some.injEq] at hx
      subst hx
      constructor
      · rw [List.countP_cons_of_pos (by simpa using hhi)]
        omega
      · rw [List.countP_cons_of_pos (by simpa using hlo)]
        have : s.countP (fun y => decide (lo ≤ y)) = s.length :=
          List.countP_eq_length.mpr fun y hy => by simpa using Rat.le_trans hlo (h1 y hy)
        simp [this]
    | succ i =>
      simp only [List.getElem?_cons_succ] at hx
      obtain ⟨h3, h4⟩ := ih h2 hx
      have ha : a ≤ hi := Rat.le_trans (h1 x (List.mem_of_getElem? hx)) hhi
      constructor
      · rw [List.countP_cons_of_pos (by simpa using ha)]
        omega
      · have := List.countP_cons (p := fun y => decide (lo ≤ y)) (a := a) (l := s)
        rw [this, List.length_cons]
        omega

theorem pyInsert_perm (x : Rat) (l : List Rat) : (pyInsert x l).Perm (x :: l) := by
  induction l with
  | nil => exact .rfl
  | cons y l ih =>
    unfold pyInsert
    split
    · exact .rfl
    · exact (ih.cons y).trans (.swap _ _ _)

theorem pySorted_perm (l : List Rat) : (pySorted l).Perm l := by
  induction l with
  | nil => exact .rfl
  | cons x l ih => exact (pyInsert_perm x _).trans (ih.cons x)

theorem pyInsert_sorted (x : Rat) {l : List Rat} (h : l.Pairwise (· ≤ ·)) :
    (pyInsert x l).Pairwise (· ≤ ·) := by
  induction l with
  | nil => simp [pyInsert]
  | cons y l ih =>
    obtain ⟨h1, h2⟩ := List.pairwise_cons.mp h
    unfold pyInsert
    split
    · rename_i hxy
      refine List.pairwise_cons.mpr ⟨fun z hz => ?_, h⟩
      rcases List.mem_cons.mp hz with rfl | hz
      · exact hxy
      · exact Rat.le_trans hxy (h1 z hz)
    · rename_i hxy
      refine List.pairwise_cons.mpr ⟨fun z hz => ?_, ih h2⟩
      rcases List.mem_cons.mp ((pyInsert_perm x l).mem_iff.mp hz) with rfl | hz
      · grind
      · exact h1 z hz

theorem pySorted_sorted (l : List Rat) : (pySorted l).Pairwise (· ≤ ·) := by
  induction l with
  | nil => exact .nil
  | cons x l ih => exact pyInsert_sorted x ih

theorem pyMedian_spec {l : List Rat} {m : Rat} (h : pyMedian l = some m) : IsMedian m l := by
  have hp := pySorted_perm l
  have hs := pySorted_sorted l
  unfold pyMedian at h
  unfold IsMedian
  rw [← hp.countP_eq, ← hp.countP_eq, ← hp.length_eq]
  generalize pySorted l = s at h hs
  dsimp only at h
  split at h
  · rename_i ho
    have := sorted_counts hs h Rat.le_refl Rat.le_refl
    omega
  · rename_i ho
    simp only [Option.bind_eq_bind, Option.bind_eq_some_iff, Option.pure_def, Option.some.injEq] at h
    obtain ⟨a, ha, b, hb, rfl⟩ := h
    have hlen : s.length / 2 < s.length := (List.getElem?_eq_some_iff.mp hb).1
    have hab : a ≤ b := by
      obtain ⟨i1, rfl⟩ := List.getElem?_eq_some_iff.mp ha
      obtain ⟨i2, rfl⟩ := List.getElem?_eq_some_iff.mp hb
      exact List.pairwise_iff_getElem.mp hs _ _ i1 i2 (by omega)
    have h1 := (sorted_counts hs ha (hi := (a + b) / 2) Rat.le_refl (by grind)).1
    have h2 := (sorted_counts hs hb (lo := (a + b) / 2) (by grind) Rat.le_refl).2
    omega

theorem pyMedian_some {l : List Rat} (h : l ≠ []) : ∃ m, pyMedian l = some m := by
  unfold pyMedian
  have hl : (pySorted l).length ≠ 0 := by
    rw [(pySorted_perm l).length_eq]
    exact fun e => h (List.length_eq_zero_iff.mp e)
  generalize pySorted l = s at hl
  dsimp only
  split
  · exact ⟨_, List.getElem?_eq_getElem (by omega)⟩
  · rw [List.getElem?_eq_getElem (show s.length / 2 - 1 < s.length by omega),
      List.getElem?_eq_getElem (show s.length / 2 < s.length by omega)]
    exact ⟨_, rfl⟩

/-- A median lies between the least and the greatest value. -/
theorem median_between {l : List Rat} {m : Rat} (h : IsMedian m l) (hl : l ≠ []) {a b : Rat}
    (ha : ∀ x ∈ l, a ≤ x) (hb : ∀ x ∈ l, x ≤ b) : a ≤ m ∧ m ≤ b := by
  have hpos : 0 < l.length := List.length_pos_iff.mpr hl
  obtain ⟨h1, h2⟩ := h
  have hc1 : 0 < l.countP (fun x => decide (x ≤ m)) := by omega
  have hc2 : 0 < l.countP (fun x => decide (m ≤ x)) := by omega
  obtain ⟨x, hx, hxm⟩ := List.countP_pos_iff.mp hc1
  obtain ⟨y, hy, hym⟩ := List.countP_pos_iff.mp hc2
  exact ⟨Rat.le_trans (ha x hx) (by simpa using hxm), Rat.le_trans (by simpa using hym) (hb y hy)⟩

/-- C82.  For every benchmark the numbers plotted are the least, a median and the greatest of the
overheads of its iterations; they exist exactly if there is an iteration and no base time
is zero. -/
theorem C82_stats (base peak : List Rat) :
    ((∃ s, plotStats base peak = some s) ↔ base.zip peak ≠ [] ∧ ∀ p ∈ base.zip peak, p.1 ≠ 0) ∧
    ∀ a m b, plotStats base peak = some (a, m, b) → ∃ l, plotOverheads (base.zip peak) = some l ∧
      a ∈ l ∧ b ∈ l ∧ (∀ x ∈ l, a ≤ x ∧ x ≤ b) ∧ IsMedian m l := by
  constructor
  · rw [← plotOverheads_some]
    unfold plotStats
    constructor
    · rintro ⟨s, h⟩
      simp only [Option.bind_eq_bind, Option.bind_eq_some_iff] at h
      obtain ⟨l, h1, a, h2, -⟩ := h
      refine ⟨fun e => ?_, l, h1⟩
      rw [e] at h1
      cases h1
      cases h2
    · rintro ⟨hne, l, h⟩
      have hl := (plotOverheads_spec h).1
      cases l with
      | nil => exact absurd (List.length_eq_zero_iff.mp hl.symm) hne
      | cons x l =>
        obtain ⟨m, hm⟩ := pyMedian_some (l := x :: l) nofun
        rw [h]
        simp only [Option.bind_eq_bind, Option.bind_some, hm, pyMin, pyMax, Option.pure_def]
        exact ⟨_, rfl⟩
  · intro a m b h
    unfold plotStats at h
    simp only [Option.bind_eq_bind, Option.bind_eq_some_iff, Option.pure_def, Option.some.injEq,
      Prod.mk.injEq] at h
    obtain ⟨l, h1, a, h2, m, h3, b, h4, rfl, rfl, rfl⟩ := h
    have := pyMin_spec h2
    have := pyMax_spec h4
    exact ⟨l, h1, by grind, by grind, fun x hx => by grind, pyMedian_spec h3⟩

/-- C82.  The error bars are never negative (matplotlib raises an exception for negative ones). -/
theorem C82_bars {base peak : List Rat} {s : Rat × Rat × Rat} (h : plotStats base peak = some s) :
    0 ≤ (plotBar s).2.1 ∧ 0 ≤ (plotBar s).2.2 := by
  obtain ⟨a, m, b⟩ := s
  obtain ⟨l, -, h1, -, h2, h3⟩ := (C82_stats base peak).2 a m b h
  have hne : l ≠ [] := fun e => by rw [e] at h1; cases h1
  have := median_between h3 hne (fun x hx => (h2 x hx).1) (fun x hx => (h2 x hx).2)
  unfold plotBar
  dsimp only
  grind

/-- Three iterations. -/
example : plotStats [10, 10, 10] [11, 12, 10] = some (0, 10, 20) := by decide +kernel

/-- The mean of the two middle overheads. -/
example : plotStats [10, 10] [11, 12] = some (10, 15, 20) := by decide +kernel

/-! ## Rows -/

theorem fullRow_iff (row : List Char) :
    (strFind row "Full Results Table".toList).isSome = true ↔ FullRow row := strFind_some _ _

theorem selectedRow_iff (row : List Char) :
    (strFind row "Selected Results Table".toList).isSome = true ↔ SelectedRow row := strFind_some _ _

/-- What ends the rows that are looked at: the end of the file or the other table. -/
def EndOfRows (post : List (List Char)) : Prop :=
  post = [] ∨ ∃ row rest, post = row :: rest ∧ SelectedRow row ∧ ¬ FullRow row

theorem plotRows_end {post : List (List Char)} (h : EndOfRows post) (b : Bool) : plotRows post b = [] := by
  rcases h with rfl | ⟨row, rest, rfl, h1, h2⟩
  · rfl
  · unfold plotRows
    rw [if_neg (fun c => h2 ((fullRow_iff row).mp c)), if_pos ((selectedRow_iff row).mpr h1)]

theorem plotRows_data {mid post : List (List Char)} (hm : ∀ row ∈ mid, FullRow row ∨ ¬ SelectedRow row)
    (hp : EndOfRows post) :
    plotRows (mid ++ post) true =
      mid.filter fun row => !(strFind row "Full Results Table".toList).isSome && row != [] && row != ['\n'] := by
  induction mid with
  | nil => exact plotRows_end hp true
  | cons row mid ih =>
    have ih := ih fun r hr => hm r (List.mem_cons_of_mem _ hr)
    rw [List.cons_append]
    unfold plotRows
    by_cases hf : FullRow row
    · rw [if_pos ((fullRow_iff row).mpr hf), ih,
        List.filter_cons_of_neg (by rw [(fullRow_iff row).mpr hf]; simp)]
    · rw [if_neg (fun c => hf ((fullRow_iff row).mp c)),
        if_neg (fun c => (hm row (by simp)).elim hf fun c' => c' ((selectedRow_iff row).mp c)), ih]
      have hf' : (strFind row "Full Results Table".toList).isSome = false := by
        simpa using fun c => hf ((fullRow_iff row).mp c)
      by_cases hb : row = [] ∨ row = ['\n']
      · rw [if_neg (by simp [hb]), List.filter_cons_of_neg (by rcases hb with rfl | rfl <;> simp)]
      · rw [if_pos ⟨rfl, hb⟩, List.filter_cons_of_pos]
        rw [hf']
        simp only [Bool.not_false, Bool.true_and, Bool.and_eq_true, bne_iff_ne]
        exact not_or.mp hb

/-- C82.  The rows taken from a result file are those between the first heading of the full
table and the other table, without headings and empty rows. -/
theorem C82_rows {pre mid post : List (List Char)} {full : List Char}
    (h1 : ∀ row ∈ pre, ¬ FullRow row ∧ ¬ SelectedRow row) (h2 : FullRow full)
    (h3 : ∀ row ∈ mid, FullRow row ∨ ¬ SelectedRow row) (h4 : EndOfRows post) (row : List Char) :
    row ∈ plotRows (pre ++ full :: (mid ++ post)) false ↔
      row ∈ mid ∧ ¬ FullRow row ∧ row ≠ [] ∧ row ≠ ['\n'] := by
  induction pre with
  | nil =>
    rw [List.nil_append]
    unfold plotRows
    rw [if_pos ((fullRow_iff full).mpr h2), plotRows_data h3 h4]
    rw [List.mem_filter, ← fullRow_iff]
    simp [and_assoc]
  | cons p pre ih =>
    rw [← ih fun r hr => h1 r (List.mem_cons_of_mem _ hr), List.cons_append]
    have hp := h1 p (by simp)
    conv => lhs; unfold plotRows
    rw [if_neg (fun c => hp.1 ((fullRow_iff p).mp c)), if_neg (fun c => hp.2 ((selectedRow_iff p).mp c)),
      if_neg (by simp)]

/-- Without a full table before the other one there are no rows. -/
theorem C82_no_rows {pre post : List (List Char)} (h1 : ∀ row ∈ pre, ¬ FullRow row ∧ ¬ SelectedRow row)
    (h4 : EndOfRows post) : plotRows (pre ++ post) false = [] := by
  induction pre with
  | nil => exact plotRows_end h4 false
  | cons p pre ih =>
    have hp := h1 p (by simp)
    rw [List.cons_append]
    unfold plotRows
    rw [if_neg (fun c => hp.1 ((fullRow_iff p).mp c)), if_neg (fun c => hp.2 ((selectedRow_iff p).mp c)),
      if_neg (by simp)]
    exact ih fun r hr => h1 r (List.mem_cons_of_mem _ hr)

/-- A small file. -/
example : plotRows ["a".toList, "Full Results Table".toList, "x,1".toList, "\n".toList,
    "Selected Results Table".toList, "y,2".toList] false = ["x,1".toList] := by decide +kernel

/-! ## Order -/

/-- A pass takes benchmarks in the order in which they are wanted. -/
theorem sortPass_spec {order : List String} {n : Nat} (hn : n = order.length) {all : List PlotBench}
    (bs : List PlotBench) {ptr : Nat} {acc : List PlotBench} (hsub : ∀ b ∈ bs, b ∈ all)
    (hacc : acc.map (·.name) = order.take ptr) (hin : ∀ b ∈ acc, b ∈ all) (hp : ptr < n) :
    ptr ≤ (sortPass order n bs ptr acc).1 ∧ (sortPass order n bs ptr acc).1 ≤ n ∧
      ((sortPass order n bs ptr acc).2).map (·.name) = order.take (sortPass order n bs ptr acc).1 ∧
      (∀ b ∈ (sortPass order n bs ptr acc).2, b ∈ all) ∧
      ((∃ b ∈ bs, order[ptr]? = some b.name) ↔ ptr < (sortPass order n bs ptr acc).1) := by
  induction bs generalizing ptr acc with
  | nil => exact ⟨Nat.le_refl _, by unfold sortPass; omega, hacc, hin, by simp [sortPass]⟩
  | cons b bs ih =>
    have hsub' : ∀ b ∈ bs, b ∈ all := fun c hc => hsub c (List.mem_cons_of_mem _ hc)
    unfold sortPass
    split
    · rename_i h
      have hacc' : (acc ++ [b]).map (·.name) = order.take (ptr + 1) := by
        rw [List.map_append, hacc, List.take_add_one, h]; rfl
      have hin' : ∀ c ∈ acc ++ [b], c ∈ all := by
        intro c hc
        rcases List.mem_append.mp hc with hc | hc
        · exact hin c hc
        · rw [List.mem_singleton.mp hc]; exact hsub b (by simp)
      split
      · rename_i he
        exact ⟨by simp, by simp only; omega, hacc', hin', ⟨fun _ => by simp, fun _ => ⟨b, by simp, h⟩⟩⟩
      · obtain ⟨h1, h2, h3, h4, -⟩ := ih hsub' hacc' hin' (by omega)
        exact ⟨by omega, h2, h3, h4, ⟨fun _ => by omega, fun _ => ⟨b, by simp, h⟩⟩⟩
    · rename_i h
      obtain ⟨h1, h2, h3, h4, h5⟩ := ih hsub' hacc hin hp
      refine ⟨h1, h2, h3, h4, ?_⟩
      rw [← h5]
      simp [h]

theorem SortEnds.spec {benchs : List PlotBench} {order : List String} (hn : benchs.length = order.length)
    {ptr : Nat} {acc r : List PlotBench} (h : SortEnds benchs order ptr acc r)
    (hacc : acc.map (·.name) = order.take ptr) (hin : ∀ b ∈ acc, b ∈ benchs) :
    r.map (·.name) = order ∧ ∀ b ∈ r, b ∈ benchs := by
  induction h with
  | stop hp =>
    rw [List.take_of_length_le (by omega)] at hacc
    exact ⟨hacc, hin⟩
  | more hp he _ ih =>
    subst he
    obtain ⟨h1, h2, h3, h4, -⟩ := sortPass_spec hn benchs (fun _ h => h) hacc hin hp
    exact ih h3 h4

theorem sortEnds_exists {benchs : List PlotBench} {order : List String}
    (hn : benchs.length = order.length) (hall : ∀ n ∈ order, ∃ b ∈ benchs, b.name = n) {ptr : Nat}
    {acc : List PlotBench} (hacc : acc.map (·.name) = order.take ptr) (hin : ∀ b ∈ acc, b ∈ benchs) :
    ∃ r, SortEnds benchs order ptr acc r := by
  generalize hk : benchs.length - ptr = k
  induction k using Nat.strongRecOn generalizing ptr acc with
  | ind k ih =>
    by_cases hp : ptr < benchs.length
    · obtain ⟨h1, h2, h3, h4, h5⟩ := sortPass_spec hn benchs (fun _ h => h) hacc hin hp
      have hlt := h5.mp (by
        obtain ⟨b, hb, e⟩ := hall order[ptr] (List.getElem_mem (by omega))
        exact ⟨b, hb, by rw [List.getElem?_eq_getElem (by omega), e]⟩)
      obtain ⟨r, hr⟩ := ih _ (by omega) h3 h4 rfl
      exact ⟨r, .more hp rfl hr⟩
    · exact ⟨acc, .stop hp⟩

theorem SortEnds.det {benchs : List PlotBench} {order : List String} {ptr : Nat}
    {acc r r' : List PlotBench} (h : SortEnds benchs order ptr acc r)
    (h' : SortEnds benchs order ptr acc r') : r = r' := by
  induction h with
  | stop hp =>
    cases h' with
    | stop => rfl
    | more h => exact absurd h hp
  | more hp he _ ih =>
    cases h' with
    | stop h => exact absurd hp h
    | more _ he' h' => exact ih (by rw [← he, he']; exact h')

/-- Distinct members in equal number are all members. -/
theorem perm_of_nodup {α β : Type} {f : α → β} {r l : List α} (hnd : (r.map f).Nodup) (hsub : ∀ x ∈ r, x ∈ l)
    (hlen : l.length ≤ r.length) : r.Perm l := by
  induction r generalizing l with
  | nil =>
    have : l = [] := List.length_eq_zero_iff.mp (by simpa using hlen)
    rw [this]
  | cons x r ih =>
    obtain ⟨s, t, rfl⟩ := List.append_of_mem (hsub x (by simp))
    rw [List.map_cons, List.nodup_cons] at hnd
    refine (List.Perm.cons x (ih (l := s ++ t) hnd.2 (fun y hy => ?_) ?_)).trans List.perm_middle.symm
    · have hyx : y ≠ x := fun e => hnd.1 (List.mem_map.mpr ⟨y, hy, by rw [e]⟩)
      have := hsub y (List.mem_cons_of_mem _ hy)
      simp only [List.mem_append, List.mem_cons] at this ⊢
      rcases this with h | h | h
      · exact .inl h
      · exact absurd h hyx
      · exact .inr h
    · simp only [List.length_append, List.length_cons] at hlen ⊢
      omega

/-- C83.  Whenever the sorting ends, the result has the wanted names in the wanted order and, if
these are distinct, holds every benchmark once; and it is the only result. -/
theorem C83_sorted_partial {benchs : List PlotBench} {order : List String} {r : List PlotBench}
    (h : SortsTo benchs order r) : r.map (·.name) = order ∧ (∀ b ∈ r, b ∈ benchs) ∧
      (order.Nodup → r.Perm benchs) ∧ ∀ r', SortsTo benchs order r' → r' = r := by
  obtain ⟨h1, h2⟩ := h.2.spec h.1 rfl nofun
  refine ⟨h1, h2, fun hnd => ?_, fun r' h' => h'.2.det h.2⟩
  refine perm_of_nodup (f := (·.name)) (by rw [h1]; exact hnd) h2 ?_
  rw [h.1, ← h1, List.length_map]
  exact Nat.le_refl _

/-- C83.  It ends exactly if as many benchmarks as wanted were run, and every wanted one
was. -/
theorem C83_ends (benchs : List PlotBench) (order : List String) :
    (∃ r, SortsTo benchs order r) ↔
      benchs.length = order.length ∧ ∀ n ∈ order, ∃ b ∈ benchs, b.name = n := by
  constructor
  · rintro ⟨r, h⟩
    refine ⟨h.1, fun n hn => ?_⟩
    obtain ⟨h1, h2, -⟩ := C83_sorted_partial h
    rw [← h1] at hn
    obtain ⟨b, hb, e⟩ := List.mem_map.mp hn
    exact ⟨b, h2 b hb, e⟩
  · rintro ⟨h1, h2⟩
    obtain ⟨r, hr⟩ := sortEnds_exists h1 h2 (ptr := 0) (acc := []) rfl nofun
    exact ⟨r, h1, hr⟩

/-- C83 is false: with a benchmark that is not wanted in place of one that is, the script runs
for ever. -/
theorem C83_refuted : ∀ r, ¬ SortsTo [⟨"mcf_s", 0, 0, 0⟩, ⟨"lbm_r", 0, 0, 0⟩] ["mcf_s", "lbm_s"] r := by
  intro r h
  obtain ⟨b, hb, e⟩ := ((C83_ends _ _).mp ⟨r, h⟩).2 "lbm_s" (by simp)
  simp only [List.mem_cons, List.not_mem_nil, or_false] at hb
  rcases hb with rfl | rfl <;> exact absurd e (by decide)

/-- Two benchmarks in the other order. -/
example : ∃ r, SortsTo [⟨"lbm_s", 0, 1, 2⟩, ⟨"mcf_s", 0, 0, 0⟩] ["mcf_s", "lbm_s"] r :=
  (C83_ends _ _).mpr ⟨rfl, by simp⟩

end Verif
