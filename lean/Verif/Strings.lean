/-!
# C++ string searches

`std::string` values are sequences of characters.  `strFind` is the overload of
`std::string::find` the code uses, with `none` for `std::string::npos`.
-/

namespace Verif

/-- `s.find(pat)`: index of the first occurrence of `pat` in `s`, or `npos`
(used in `/repo/src/pass_manager.h:304`, `/repo/src/parse.cc:39,47-53`). -/
def strFind (s pat : List Char) : Option Nat :=
  match s with
  | [] => if pat = [] then some 0 else none
  | c :: rest =>
    if pat.isPrefixOf (c :: rest) then some 0 else (strFind rest pat).map (· + 1)

theorem strFind_zero (s pat : List Char) : strFind s pat = some 0 ↔ pat <+: s := by
  cases s with
  | nil => simp [strFind]
  | cons c rest =>
    simp only [strFind]
    split
    · rename_i h
      simpa using List.isPrefixOf_iff_prefix.mp h
    · rename_i h
      constructor
      · cases strFind rest pat <;> simp
      · intro h'
        exact absurd (List.isPrefixOf_iff_prefix.mpr h') (by simpa using h)

theorem strFind_some (s pat : List Char) : (strFind s pat).isSome = true ↔ pat <:+: s := by
  induction s with
  | nil => simp [strFind]
  | cons c rest ih =>
    simp only [strFind]
    split
    · rename_i h
      simpa using (List.isPrefixOf_iff_prefix.mp h).isInfix
    · rename_i h
      rw [List.infix_cons_iff, ← ih, Option.isSome_map]
      constructor
      · exact Or.inr
      · rintro (h' | h')
        · exact absurd (List.isPrefixOf_iff_prefix.mpr h') (by simpa using h)
        · exact h'

/-- The index returned is the first one. -/
theorem strFind_first (s pat : List Char) (n : Nat) (h : strFind s pat = some n) :
    pat <+: s.drop n ∧ ∀ m, m < n → ¬ pat <+: s.drop m := by
  induction s generalizing n with
  | nil =>
    simp only [strFind] at h
    split at h
    · cases h; subst pat; simp
    · cases h
  | cons c rest ih =>
    simp only [strFind] at h
    split at h
    · rename_i hp
      cases h
      exact ⟨by simpa using List.isPrefixOf_iff_prefix.mp hp, by intro m hm; omega⟩
    · rename_i hp
      cases hf : strFind rest pat with
      | none => rw [hf] at h; cases h
      | some k =>
        rw [hf] at h
        cases h
        obtain ⟨h1, h2⟩ := ih k hf
        refine ⟨by simpa using h1, ?_⟩
        intro m hm
        cases m with
        | zero =>
          intro hp'
          exact absurd (List.isPrefixOf_iff_prefix.mpr hp') (by simpa using hp)
        | succ m =>
          have hm' : m + 1 < k + 1 := hm
          simpa using h2 m (by omega)

end Verif
