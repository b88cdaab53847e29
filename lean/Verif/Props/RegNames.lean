import Verif.RegNames
import Verif.ListLemmas

/-!
# C23, C24, C52: register names, unused registers, red zone accesses
-/

namespace Verif

/-! ## Specification -/

/-- A sub-register name of a general register, without its architecture prefix: the
register's full name and the name. -/
inductive SubReg : List Char → List Char → Prop
  | full {c} (h : c ∈ ['a', 'b', 'c', 'd']) : SubReg ['r', c, 'x'] ['r', c, 'x']
  | dword {c} (h : c ∈ ['a', 'b', 'c', 'd']) : SubReg ['r', c, 'x'] ['e', c, 'x']
  | word {c} (h : c ∈ ['a', 'b', 'c', 'd']) : SubReg ['r', c, 'x'] [c, 'x']
  | high {c} (h : c ∈ ['a', 'b', 'c', 'd']) : SubReg ['r', c, 'x'] [c, 'h']
  | low {c} (h : c ∈ ['a', 'b', 'c', 'd']) : SubReg ['r', c, 'x'] [c, 'l']
  | idx {p} (h : p ∈ [['s', 'i'], ['d', 'i'], ['b', 'p'], ['s', 'p']]) : SubReg ('r' :: p) ('r' :: p)
  | idxDword {p} (h : p ∈ [['s', 'i'], ['d', 'i'], ['b', 'p'], ['s', 'p']]) :
      SubReg ('r' :: p) ('e' :: p)
  | idxWord {p} (h : p ∈ [['s', 'i'], ['d', 'i'], ['b', 'p'], ['s', 'p']]) : SubReg ('r' :: p) p
  | idxLow {p} (h : p ∈ [['s', 'i'], ['d', 'i'], ['b', 'p'], ['s', 'p']]) :
      SubReg ('r' :: p) (p ++ ['l'])
  | num {n} (h : n ∈ [['8'], ['9'], ['1', '0'], ['1', '1'], ['1', '2'], ['1', '3'], ['1', '4'],
      ['1', '5']]) : SubReg ('r' :: n) ('r' :: n)
  | numPart {n s} (h : n ∈ [['8'], ['9'], ['1', '0'], ['1', '1'], ['1', '2'], ['1', '3'],
      ['1', '4'], ['1', '5']]) (hs : s ∈ ['d', 'w', 'b', 'l']) : SubReg ('r' :: n) ('r' :: n ++ [s])

/-- The four byte registers `sil`, `dil`, `bpl`, `spl`. -/
def OddByte (n : List Char) : Prop :=
  n ∈ [['s', 'i', 'l'], ['d', 'i', 'l'], ['b', 'p', 'l'], ['s', 'p', 'l']]

/-! ## C24 -/

/-- **When the normalisation of a name throws**: on a name shorter than the prefix, and on the prefix
followed by the single letter `r`. -/
theorem C24_throws (name : List Char) :
    normalize name = none ↔ name.length < 8 ∨ name.drop 8 = ['r'] := by
  unfold normalize
  split
  · simp [*]
  · rename_i hl
    simp only [hl, false_or]
    generalize name.drop 8 = reg
    constructor
    · intro h
      unfold normReg at h
      repeat' split at h
      all_goals first | rfl | (exfalso; cases h; done) | skip
      rename_i hd
      simp only [List.getLast_singleton, Bool.and_eq_true, Char.isDigit, Char.isAlpha, Char.isUpper,
        Char.isLower, Bool.or_eq_true, decide_eq_true_eq, ge_iff_le, UInt32.le_iff_toNat_le] at hd
      exfalso
      have e1 : 'A'.val.toNat = 65 := rfl
      have e2 : 'a'.val.toNat = 97 := rfl
      have e3 : '9'.val.toNat = 57 := rfl
      omega
    · rintro rfl; rfl

theorem normalize_arch (reg : List Char) : normalize (arch ++ reg) = normReg (arch ++ reg) reg := by
  unfold normalize
  rw [if_neg (by simp [arch])]
  rfl

/-- **C24, table.** Every sub-register name except the four byte registers is normalised to
the name of its 64-bit register.  Missing: the four byte registers (`C24_refuted`). -/
theorem C24_table_partial (full n : List Char) (h : SubReg full n) (ho : ¬ OddByte n) :
    normalize (arch ++ n) = some (arch ++ full) := by
  rw [normalize_arch]
  cases h with
  | full h | dword h | word h | high h | low h =>
    simp only [List.mem_cons, List.not_mem_nil, or_false] at h
    rcases h with rfl | rfl | rfl | rfl <;> decide
  | idx h | idxDword h | idxWord h =>
    simp only [List.mem_cons, List.not_mem_nil, or_false] at h
    rcases h with rfl | rfl | rfl | rfl <;> decide
  | idxLow h =>
    simp only [List.mem_cons, List.not_mem_nil, or_false] at h
    rcases h with rfl | rfl | rfl | rfl <;> exact absurd (by unfold OddByte; decide) ho
  | num h =>
    simp only [List.mem_cons, List.not_mem_nil, or_false] at h
    rcases h with rfl | rfl | rfl | rfl | rfl | rfl | rfl | rfl <;> decide
  | numPart h hs =>
    simp only [List.mem_cons, List.not_mem_nil, or_false] at h hs
    rcases h with rfl | rfl | rfl | rfl | rfl | rfl | rfl | rfl <;>
      rcases hs with rfl | rfl | rfl | rfl <;> decide

/-- **C24 is false** for each of the four byte registers: they keep their names. -/
theorem C24_refuted (n : List Char) (h : OddByte n) :
    (∃ full, SubReg full n ∧ full ≠ n) ∧ normalize (arch ++ n) = some (arch ++ n) := by
  unfold OddByte at h
  simp only [List.mem_cons, List.not_mem_nil, or_false] at h
  rcases h with rfl | rfl | rfl | rfl
  · exact ⟨⟨_, .idxLow (p := ['s', 'i']) (by decide), by decide⟩, by decide⟩
  · exact ⟨⟨_, .idxLow (p := ['d', 'i']) (by decide), by decide⟩, by decide⟩
  · exact ⟨⟨_, .idxLow (p := ['b', 'p']) (by decide), by decide⟩, by decide⟩
  · exact ⟨⟨_, .idxLow (p := ['s', 'p']) (by decide), by decide⟩, by decide⟩

/-- **C24, numbered registers.** A numbered register with any suffix ending in a letter is
normalised to its number, for any digits. -/
theorem C24_numbered (d : Char) (hd : d.isDigit) (s : List Char) (c : Char) (hc : c.isAlpha) :
    (∀ x, s.head? = some x → x.isDigit = false) → normalize (arch ++ 'r' :: d :: s ++ [c]) =
      some (arch ++ ['r', d]) := by
  intro hx
  have : arch ++ 'r' :: d :: s ++ [c] = arch ++ ('r' :: d :: (s ++ [c])) := by simp
  rw [this, normalize_arch]
  have hc2 : c.isDigit = false := by
    cases hdc : c.isDigit with
    | false => rfl
    | true =>
      simp only [Char.isAlpha, Char.isUpper, Char.isLower, Char.isDigit, Bool.or_eq_true,
        Bool.and_eq_true, decide_eq_true_eq, ge_iff_le, UInt32.le_iff_toNat_le] at hc hdc
      have h1 : ('9' : Char).val.toNat = 57 := by decide
      have h2 : ('A' : Char).val.toNat = 65 := by decide
      have h3 : ('a' : Char).val.toNat = 97 := by decide
      simp only [Char.reduceVal, UInt32.reduceToNat] at hc hdc
      omega
  cases s with
  | nil => simp [normReg, hd, hc, hc2]
  | cons x s =>
    have := hx x rfl
    have hl : (x :: (s ++ [c])).getLast (by simp) = c := by
      rw [List.getLast_cons (by simp)]; simp
    simp [normReg, hd, hl, hc, this]

theorem C24_numbered_two (d e : Char) (hd : d.isDigit) (he : e.isDigit) (s : List Char) (c : Char)
    (hc : c.isAlpha) :
    normalize (arch ++ 'r' :: d :: e :: s ++ [c]) = some (arch ++ ['r', d, e]) := by
  have : arch ++ 'r' :: d :: e :: s ++ [c] = arch ++ ('r' :: d :: e :: (s ++ [c])) := by simp
  rw [this, normalize_arch]
  have hl : (e :: (s ++ [c])).getLast (by simp) = c := by
    rw [List.getLast_cons (by simp)]; simp
  simp [normReg, hd, hl, hc, he]

/-- The possible results of `normReg`. -/
theorem normReg_cases (full reg y : List Char) (h : normReg full reg = some y) :
    (∃ rest, reg = 'e' :: rest ∧ y = arch ++ 'r' :: rest) ∨
    (∃ c x, c.isDigit = false ∧ y = arch ++ ['r', c, x] ∧ reg.head? ≠ some 'r') ∨
    (∃ c1 c2, c1.isDigit = true ∧ c2.isDigit = true ∧ y = arch ++ ['r', c1, c2] ∧
      ∃ rest, reg = 'r' :: c1 :: c2 :: rest) ∨
    (∃ c1, c1.isDigit = true ∧ y = arch ++ ['r', c1] ∧ ∃ rest, reg = 'r' :: c1 :: rest) ∨
    (y = full ∧ reg ≠ ['r'] ∧ reg.head? ≠ some 'e') := by
  unfold normReg at h
  split at h
  · cases h; exact .inl ⟨_, rfl, rfl⟩
  · rename_i hne
    by_cases h1 : reg = ['a', 'x'] ∨ reg = ['a', 'h'] ∨ reg = ['a', 'l']
    · rw [if_pos h1] at h; cases h
      exact .inr (.inl ⟨'a', 'x', by decide, rfl, by rcases h1 with rfl | rfl | rfl <;> decide⟩)
    rw [if_neg h1] at h
    by_cases h1 : reg = ['b', 'x'] ∨ reg = ['b', 'h'] ∨ reg = ['b', 'l']
    · rw [if_pos h1] at h; cases h
      exact .inr (.inl ⟨'b', 'x', by decide, rfl, by rcases h1 with rfl | rfl | rfl <;> decide⟩)
    rw [if_neg h1] at h
    by_cases h1 : reg = ['c', 'x'] ∨ reg = ['c', 'h'] ∨ reg = ['c', 'l']
    · rw [if_pos h1] at h; cases h
      exact .inr (.inl ⟨'c', 'x', by decide, rfl, by rcases h1 with rfl | rfl | rfl <;> decide⟩)
    rw [if_neg h1] at h
    by_cases h1 : reg = ['d', 'x'] ∨ reg = ['d', 'h'] ∨ reg = ['d', 'l']
    · rw [if_pos h1] at h; cases h
      exact .inr (.inl ⟨'d', 'x', by decide, rfl, by rcases h1 with rfl | rfl | rfl <;> decide⟩)
    rw [if_neg h1] at h
    by_cases h1 : reg = ['s', 'i']
    · rw [if_pos h1] at h; cases h
      exact .inr (.inl ⟨'s', 'i', by decide, rfl, by subst h1; decide⟩)
    rw [if_neg h1] at h
    by_cases h1 : reg = ['d', 'i']
    · rw [if_pos h1] at h; cases h
      exact .inr (.inl ⟨'d', 'i', by decide, rfl, by subst h1; decide⟩)
    rw [if_neg h1] at h
    by_cases h1 : reg = ['b', 'p']
    · rw [if_pos h1] at h; cases h
      exact .inr (.inl ⟨'b', 'p', by decide, rfl, by subst h1; decide⟩)
    rw [if_neg h1] at h
    by_cases h1 : reg = ['s', 'p']
    · rw [if_pos h1] at h; cases h
      exact .inr (.inl ⟨'s', 'p', by decide, rfl, by subst h1; decide⟩)
    rw [if_neg h1] at h
    have hhead : reg.head? ≠ some 'e' := by
      intro he
      cases reg with
      | nil => cases he
      | cons c rest => simp only [List.head?_cons, Option.some.injEq] at he; exact hne rest (by rw [he])
    split at h
    · cases h
    · rename_i c1 rest
      split at h
      · rename_i hc
        rw [Bool.and_eq_true] at hc
        split at h
        · cases h
        · split at h
          · rename_i hd2
            cases h
            exact .inr (.inr (.inl ⟨_, _, hc.1, hd2, rfl, _, rfl⟩))
          · cases h
            exact .inr (.inr (.inr (.inl ⟨_, hc.1, rfl, _, rfl⟩)))
      · cases h
        exact .inr (.inr (.inr (.inr ⟨rfl, by simp, hhead⟩)))
    · cases h
      rename_i hr1 _
      exact .inr (.inr (.inr (.inr ⟨rfl, fun h => hr1 h, hhead⟩)))

theorem isDigit_not_isAlpha (c : Char) (h : c.isDigit = true) : c.isAlpha = false := by
  cases ha : c.isAlpha with
  | false => rfl
  | true =>
    simp only [Char.isAlpha, Char.isUpper, Char.isLower, Char.isDigit, Bool.or_eq_true,
      Bool.and_eq_true, decide_eq_true_eq, ge_iff_le, UInt32.le_iff_toNat_le] at ha h
    simp only [Char.reduceVal, UInt32.reduceToNat] at ha h
    omega

/-- **C24, idempotence.** On names with the prefix whose rest is not `e` alone or followed by
a digit (no register is named so), normalising twice is normalising once. -/
theorem C24_idempotent (reg y : List Char)
    (he : ∀ rest, reg = 'e' :: rest → ∃ c r, rest = c :: r ∧ c.isDigit = false)
    (h : normalize (arch ++ reg) = some y) : normalize y = some y := by
  rw [normalize_arch] at h
  rcases normReg_cases _ _ _ h with ⟨rest, h1, rfl⟩ | ⟨c, x, hc, rfl, _⟩ |
    ⟨c1, c2, h1, h2, rfl, _⟩ | ⟨c1, h1, rfl, _⟩ | ⟨rfl, _⟩
  · obtain ⟨c, r, rfl, hc⟩ := he rest h1
    rw [normalize_arch]
    simp [normReg, hc]
  · rw [normalize_arch]
    simp [normReg, hc]
  · rw [normalize_arch]
    have := isDigit_not_isAlpha c2 h2
    simp [normReg, this]
  · rw [normalize_arch]
    have := isDigit_not_isAlpha c1 h1
    simp [normReg, this]
  · rw [normalize_arch]; exact h

/-- **C24, nothing else is merged.** Only sub-registers of a register with a two-letter stem
are normalised to its name. -/
theorem C24_no_merge (reg : List Char) (c x : Char) (hc : c.isDigit = false)
    (h : normalize (arch ++ reg) = some (arch ++ ['r', c, x])) :
    reg = ['r', c, x] ∨ reg = ['e', c, x] ∨ SubReg ['r', c, x] reg := by
  rw [normalize_arch] at h
  unfold normReg at h
  split at h
  · simp only [Option.some.injEq, List.append_cancel_left_eq, List.cons.injEq, true_and] at h
    rw [h]; simp
  · have inj : ∀ {a b : Char}, some (arch ++ ['r', a, b]) = some (arch ++ ['r', c, x]) →
        a = c ∧ b = x := by
      intro a b h
      simpa only [Option.some.injEq, List.append_cancel_left_eq, List.cons.injEq, true_and,
        and_true] using h
    by_cases h1 : reg = ['a', 'x'] ∨ reg = ['a', 'h'] ∨ reg = ['a', 'l']
    · rw [if_pos h1] at h
      obtain ⟨rfl, rfl⟩ := inj h
      rcases h1 with rfl | rfl | rfl
      · exact .inr (.inr (.word (by decide)))
      · exact .inr (.inr (.high (by decide)))
      · exact .inr (.inr (.low (by decide)))
    rw [if_neg h1] at h
    by_cases h1 : reg = ['b', 'x'] ∨ reg = ['b', 'h'] ∨ reg = ['b', 'l']
    · rw [if_pos h1] at h
      obtain ⟨rfl, rfl⟩ := inj h
      rcases h1 with rfl | rfl | rfl
      · exact .inr (.inr (.word (by decide)))
      · exact .inr (.inr (.high (by decide)))
      · exact .inr (.inr (.low (by decide)))
    rw [if_neg h1] at h
    by_cases h1 : reg = ['c', 'x'] ∨ reg = ['c', 'h'] ∨ reg = ['c', 'l']
    · rw [if_pos h1] at h
      obtain ⟨rfl, rfl⟩ := inj h
      rcases h1 with rfl | rfl | rfl
      · exact .inr (.inr (.word (by decide)))
      · exact .inr (.inr (.high (by decide)))
      · exact .inr (.inr (.low (by decide)))
    rw [if_neg h1] at h
    by_cases h1 : reg = ['d', 'x'] ∨ reg = ['d', 'h'] ∨ reg = ['d', 'l']
    · rw [if_pos h1] at h
      obtain ⟨rfl, rfl⟩ := inj h
      rcases h1 with rfl | rfl | rfl
      · exact .inr (.inr (.word (by decide)))
      · exact .inr (.inr (.high (by decide)))
      · exact .inr (.inr (.low (by decide)))
    rw [if_neg h1] at h
    by_cases h1 : reg = ['s', 'i']
    · rw [if_pos h1] at h
      obtain ⟨rfl, rfl⟩ := inj h
      subst h1
      exact .inr (.inr (.idxWord (p := ['s', 'i']) (by decide)))
    rw [if_neg h1] at h
    by_cases h1 : reg = ['d', 'i']
    · rw [if_pos h1] at h
      obtain ⟨rfl, rfl⟩ := inj h
      subst h1
      exact .inr (.inr (.idxWord (p := ['d', 'i']) (by decide)))
    rw [if_neg h1] at h
    by_cases h1 : reg = ['b', 'p']
    · rw [if_pos h1] at h
      obtain ⟨rfl, rfl⟩ := inj h
      subst h1
      exact .inr (.inr (.idxWord (p := ['b', 'p']) (by decide)))
    rw [if_neg h1] at h
    by_cases h1 : reg = ['s', 'p']
    · rw [if_pos h1] at h
      obtain ⟨rfl, rfl⟩ := inj h
      subst h1
      exact .inr (.inr (.idxWord (p := ['s', 'p']) (by decide)))
    rw [if_neg h1] at h
    split at h
    · cases h
    · rename_i c1 rest
      split at h
      · rename_i hd
        rw [Bool.and_eq_true] at hd
        split at h
        · cases h
        · split at h
          · simp only [Option.some.injEq, List.append_cancel_left_eq, List.cons.injEq, true_and] at h
            rw [h.1] at hd
            rw [hc] at hd
            exact absurd hd.1 (by decide)
          · simp at h
      · simp only [Option.some.injEq, List.append_cancel_left_eq, List.cons.injEq, true_and] at h
        left; rw [h.1, h.2]
    · simp only [Option.some.injEq, List.append_cancel_left_eq] at h
      exact .inl h

example : normalize "x86_64::r10d".toList = some "x86_64::r10".toList ∧
    normalize "x86_64::eax".toList = some "x86_64::rax".toList ∧
    normalize "x86_64::ah".toList = some "x86_64::rax".toList ∧
    normalize "x86_64::sil".toList = some "x86_64::sil".toList := by decide

/-! ## C23 -/

theorem mapM_some_mem {α β : Type} (g : α → Option β) (l : List α) (l' : List β)
    (h : l.mapM g = some l') : ∀ x ∈ l, ∃ y ∈ l', g x = some y := by
  induction l generalizing l' with
  | nil => intro x hx; cases hx
  | cons a l ih =>
    rw [List.mapM_cons] at h
    cases ha : g a with
    | none => rw [ha] at h; cases h
    | some b =>
      rw [ha] at h
      cases hl : l.mapM g with
      | none => rw [hl] at h; cases h
      | some bs =>
        rw [hl] at h
        cases h
        intro x hx
        rcases List.mem_cons.mp hx with rfl | hx
        · exact ⟨b, by simp, ha⟩
        · obtain ⟨y, hy, hg⟩ := ih bs hl x hx
          exact ⟨y, by simp [hy], hg⟩

theorem urInsn_used {st st' : UnusedState} {i : RegInsn} (h : urInsn st i = some st') :
    (∀ u ∈ st.used, u ∈ st'.used) ∧
      ∀ n, n ∈ i.reads ∨ n ∈ i.writes → ∃ y ∈ st'.used, normalize n = some y := by
  unfold urInsn at h
  cases hr : i.reads.mapM normalize with
  | none => rw [hr] at h; cases h
  | some r =>
    cases hw : i.writes.mapM normalize with
    | none => rw [hr, hw] at h; cases h
    | some w =>
      rw [hr, hw] at h
      have hused : st'.used = w ++ r ++ st.used := by
        simp only [Option.bind_eq_bind, Option.bind_some] at h
        split at h <;> cases h <;> rfl
      rw [hused]
      refine ⟨fun u hu => by simp [hu], fun n hn => ?_⟩
      rcases hn with hn | hn
      · obtain ⟨y, hy, hg⟩ := mapM_some_mem _ _ _ hr n hn
        exact ⟨y, by simp [hy], hg⟩
      · obtain ⟨y, hy, hg⟩ := mapM_some_mem _ _ _ hw n hn
        exact ⟨y, by simp [hy], hg⟩

/-- **C23, what holds.** A register reported unused is not touched, in any width, by any
instruction of the function, as long as that instruction does not name it as one of the byte
registers `sil`, `dil`, `bpl`, `spl`.  Missing: these names, for which it is false. -/
theorem C23_unused_partial (insns : List RegInsn) (s s' : FuncSummary) (hs : s.unusedRegs = [])
    (h : unusedRegisters insns s = some s') (full n : List Char)
    (hr : ∃ r ∈ s'.unusedRegs, r.toList = arch ++ full) (i : RegInsn) (hi : i ∈ insns)
    (hn : SubReg full n) (ho : ¬ OddByte n) :
    arch ++ n ∉ i.reads ∧ arch ++ n ∉ i.writes := by
  unfold unusedRegisters at h
  split at h
  · cases h; rw [hs] at hr; obtain ⟨_, hr, _⟩ := hr; cases hr
  split at h
  · cases h; rw [hs] at hr; obtain ⟨_, hr, _⟩ := hr; cases hr
  cases hf : insns.foldlM urInsn
      { used := [], moveDownSP := s.moveDownSP, redZone := s.redZoneAccess } with
  | none => rw [hf] at h; cases h
  | some st =>
    rw [hf] at h
    cases h
    obtain ⟨r, hr, hre⟩ := hr
    have hr2 := (List.mem_filter.mp hr).2
    rw [hre] at hr2
    have hnot : arch ++ full ∉ st.used := by simpa using hr2
    have key := foldlM_prefix
      (fun done (u : UnusedState) => ∀ j ∈ done, ∀ m, m ∈ j.reads ∨ m ∈ j.writes →
        ∃ y ∈ u.used, normalize m = some y) urInsn insns [] _ st
      (by
        intro done j u u' _ hp hstep k hk m hm
        obtain ⟨h1, h2⟩ := urInsn_used hstep
        rcases List.mem_append.mp hk with hk | hk
        · obtain ⟨y, hy, hg⟩ := hp k hk m hm
          exact ⟨y, h1 y hy, hg⟩
        · have : k = j := by simpa using hk
          subst this
          exact h2 m hm)
      (by simp) hf
    have hno : ¬ (arch ++ n ∈ i.reads ∨ arch ++ n ∈ i.writes) := by
      intro hm
      obtain ⟨y, hy, hg⟩ := key i (by simpa using hi) _ hm
      rw [C24_table_partial full n hn ho] at hg
      cases hg
      exact hnot hy
    exact ⟨fun h => hno (.inl h), fun h => hno (.inr h)⟩

/-- **C23 is false.** A function whose only instruction writes `sil` is said not to use
`rsi`. -/
theorem C23_refuted : ∃ (insns : List RegInsn) (s' : FuncSummary) (full n : List Char) (i : RegInsn),
    unusedRegisters insns {} = some s' ∧ (∃ r ∈ s'.unusedRegs, r.toList = arch ++ full) ∧
      i ∈ insns ∧ SubReg full n ∧ arch ++ n ∈ i.writes :=
  ⟨[{ writes := ["x86_64::sil".toList] }], _, "rsi".toList, "sil".toList, _, rfl,
    ⟨"x86_64::rsi", by decide, by decide⟩, List.mem_cons_self, .idxLow (p := ['s', 'i']) (by decide),
    by decide⟩

/-- With two instructions using `eax` and `r10d`, the register chosen is `r11`. -/
example : (unusedRegisters [{ reads := ["x86_64::eax".toList] }, { writes := ["x86_64::r10d".toList] }]
    {}).map (fun s => s.unusedRegs.head?) = some (some "x86_64::r11") := by decide

/-! ## C52: red zone accesses -/

/-- `base + disp`. -/
def baseDisp (base : List Char) (d : Int) : AddrExpr := .add (.reg base) (.imm d)

/-- `base + index * scale + disp`. -/
def baseIndex (base idx : List Char) (scale d : Int) : AddrExpr :=
  .add (.add (.reg base) (.mul (.reg idx) (.imm scale))) (.imm d)

/-- **C52.** An operand `rsp + d` counts as a red zone access exactly when `d` is
negative. -/
theorem C52_rsp (d : Int) :
    (({} : RedZone).visit (baseDisp (arch ++ ['r', 's', 'p']) d)).isRedZoneAccess = true ↔ d < 0 := by
  simp [baseDisp, RedZone.visit, RedZone.isRedZoneAccess]

/-- An operand that mentions any register other than `rsp` never counts. -/
theorem visit_other (e : AddrExpr) (v : RedZone) (h : v.onlySP = false) :
    (v.visit e).onlySP = false := by
  induction e generalizing v with
  | imm i => exact h
  | reg name => unfold RedZone.visit; split <;> simp [h]
  | add a b iha ihb => exact ihb _ (iha v h)
  | mul a b iha ihb => exact ihb _ (iha v h)
  | deref a iha => exact iha v h

/-- The registers of an address expression. -/
def AddrExpr.regs : AddrExpr → List (List Char)
  | .imm _ => []
  | .reg n => [n]
  | .add a b => a.regs ++ b.regs
  | .mul a b => a.regs ++ b.regs
  | .deref a => a.regs

theorem visit_onlySP (e : AddrExpr) (v : RedZone) (n : List Char) (hn : n ∈ e.regs)
    (hne : n ≠ arch ++ ['r', 's', 'p']) : (v.visit e).onlySP = false := by
  induction e generalizing v with
  | imm i => cases hn
  | reg name =>
    have : n = name := by simpa [AddrExpr.regs] using hn
    subst this
    simp [RedZone.visit, hne]
  | add a b iha ihb =>
    rcases List.mem_append.mp hn with h | h
    · exact visit_other b _ (iha v h)
    · exact ihb _ h
  | mul a b iha ihb =>
    rcases List.mem_append.mp hn with h | h
    · exact visit_other b _ (iha v h)
    · exact ihb _ h
  | deref a iha => exact iha v hn

/-- **C52, what is missed.** No access through another register is ever recorded, whatever
the displacement, even if that register points into the red zone. -/
theorem C52_other_register (e : AddrExpr) (n : List Char) (hn : n ∈ e.regs)
    (hne : n ≠ arch ++ ['r', 's', 'p']) : (({} : RedZone).visit e).isRedZoneAccess = false := by
  unfold RedZone.isRedZoneAccess
  rw [visit_onlySP e {} n hn hne]
  simp

example : (({} : RedZone).visit (baseDisp "x86_64::rsp".toList (-16))).isRedZoneAccess = true ∧
    (({} : RedZone).visit (baseDisp "x86_64::rbp".toList (-16))).isRedZoneAccess = false ∧
    (({} : RedZone).visit
      (baseIndex "x86_64::rsp".toList "x86_64::rcx".toList 8 (-16))).isRedZoneAccess = false := by
  decide

/-- **C52, recording.** If an instruction of the function has an operand `rsp + d` with
`d < 0`, then the function's red zone set is not empty. -/
theorem C52_recorded (insns : List RegInsn) (s s' : FuncSummary) (ha : s.assumeUnsafe = false)
    (hc : s.callees = []) (h : unusedRegisters insns s = some s') (i : RegInsn) (hi : i ∈ insns)
    (hm : i.readsMemory = true ∨ i.writesMemory = true) (d : Int) (hd : d < 0)
    (ho : baseDisp (arch ++ ['r', 's', 'p']) d ∈ i.operands) : d ∈ s'.redZoneAccess := by
  unfold unusedRegisters at h
  rw [if_neg (by simp [ha]), if_neg (by simp [hc])] at h
  cases hf : insns.foldlM urInsn
      { used := [], moveDownSP := s.moveDownSP, redZone := s.redZoneAccess } with
  | none => rw [hf] at h; cases h
  | some st =>
    rw [hf] at h
    cases h
    have mono : ∀ (es : List AddrExpr) (z : List Int) (x : Int), x ∈ z → x ∈ es.foldl urOperand z := by
      intro es
      induction es with
      | nil => intro z x hx; exact hx
      | cons e es ih =>
        intro z x hx
        refine ih _ x ?_
        unfold urOperand
        dsimp only
        split
        · simp [hx]
        · exact hx
    have step : ∀ {u u' : UnusedState} {j : RegInsn}, urInsn u j = some u' →
        (∀ x ∈ u.redZone, x ∈ u'.redZone) ∧ ((j.readsMemory = true ∨ j.writesMemory = true) →
          u'.redZone = j.operands.foldl urOperand u.redZone) := by
      intro u u' j hj
      unfold urInsn at hj
      cases hr : j.reads.mapM normalize with
      | none => rw [hr] at hj; cases hj
      | some r =>
        cases hw : j.writes.mapM normalize with
        | none => rw [hr, hw] at hj; cases hj
        | some w =>
          rw [hr, hw] at hj
          simp only [Option.bind_eq_bind, Option.bind_some] at hj
          split at hj
          · rename_i hno
            cases hj
            refine ⟨fun _ h => h, fun hmm => ?_⟩
            simp only [Bool.and_eq_true, Bool.not_eq_true'] at hno
            rcases hmm with h | h
            · rw [hno.2] at h; cases h
            · rw [hno.1] at h; cases h
          · cases hj
            exact ⟨fun x hx => mono _ _ _ hx, fun _ => rfl⟩
    have hin : ∀ (es : List AddrExpr) (z : List Int), baseDisp (arch ++ ['r', 's', 'p']) d ∈ es →
        d ∈ es.foldl urOperand z := by
      intro es
      induction es with
      | nil => intro z h; cases h
      | cons e es ih =>
        intro z h
        rcases List.mem_cons.mp h with rfl | h
        · refine mono es _ d ?_
          unfold urOperand
          dsimp only
          rw [if_pos ((C52_rsp d).mpr hd)]
          simp [baseDisp, RedZone.visit]
        · exact ih _ h
    have key := foldlM_prefix
      (fun done (u : UnusedState) => i ∈ done → d ∈ u.redZone) urInsn insns [] _ st
      (by
        intro done j u u' _ hp hstep hk
        obtain ⟨h1, h2⟩ := step hstep
        rcases List.mem_append.mp hk with hk | hk
        · exact h1 d (hp hk)
        · have : i = j := by simpa using hk
          subst this
          rw [h2 hm]
          exact hin _ _ ho)
      (by simp) hf
    exact key (by simpa using hi)

end Verif
