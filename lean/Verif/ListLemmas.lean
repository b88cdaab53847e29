/-! # Loops in the `Option` monad -/

namespace Verif

/-- An invariant of a loop that may fail, with the list of elements already processed. -/
theorem foldlM_prefix {α β : Type} (P : List β → α → Prop) (f : α → β → Option α)
    (l : List β) :
    ∀ (done : List β) (a a' : α),
      (∀ done b a a', b ∈ l → P done a → f a b = some a' → P (done ++ [b]) a') →
      P done a → l.foldlM f a = some a' → P (done ++ l) a' := by
  induction l with
  | nil =>
    intro done a a' _ h e
    simp only [List.foldlM_nil] at e
    cases e
    simpa using h
  | cons b l ih =>
    intro done a a' hs h e
    simp only [List.foldlM_cons] at e
    cases hb : f a b with
    | none => rw [hb] at e; cases e
    | some a1 =>
      rw [hb] at e
      have h1 := hs done b a a1 (by simp) h hb
      have := ih (done ++ [b]) a1 a'
        (fun done c a a' hc => hs done c a a' (by simp [hc])) h1 e
      simpa using this

/-- An invariant of a loop that may fail. -/
theorem foldlM_inv {α β : Type} (P : α → Prop) (f : α → β → Option α) (l : List β) (a a' : α)
    (hs : ∀ b a a', b ∈ l → P a → f a b = some a' → P a') (h : P a)
    (e : l.foldlM f a = some a') : P a' :=
  foldlM_prefix (fun _ a => P a) f l [] a a' (fun _ b a a' hb => hs b a a' hb) h e

/-- A loop that may fail succeeds if every iteration does. -/
theorem foldlM_total {α β : Type} (P : α → Prop) (f : α → β → Option α) (l : List β) :
    ∀ a : α, (∀ b a, b ∈ l → P a → ∃ a', f a b = some a' ∧ P a') → P a →
      ∃ a', l.foldlM f a = some a' ∧ P a' := by
  induction l with
  | nil => intro a _ h; exact ⟨a, rfl, h⟩
  | cons b l ih =>
    intro a hs h
    obtain ⟨a1, e1, h1⟩ := hs b a (by simp) h
    obtain ⟨a', e', h'⟩ := ih a1 (fun c a hc => hs c a (by simp [hc])) h1
    exact ⟨a', by simp only [List.foldlM_cons, e1]; exact e', h'⟩

/-- Number of elements of `E` that are not in `V`. -/
def remaining {α : Type} [DecidableEq α] (E V : List α) : Nat := (E.filter (fun x => x ∉ V)).length

theorem remaining_mono {α : Type} [DecidableEq α] (E V V' : List α) (h : ∀ g ∈ V, g ∈ V') :
    remaining E V' ≤ remaining E V := by
  unfold remaining
  rw [← List.countP_eq_length_filter, ← List.countP_eq_length_filter]
  apply List.countP_mono_left
  intro x _ hx
  simp only [decide_eq_true_eq] at hx ⊢
  exact fun hv => hx (h x hv)

theorem remaining_cons {α : Type} [DecidableEq α] (E V : List α) (f : α) (hf : f ∈ E)
    (hn : f ∉ V) : remaining E (f :: V) < remaining E V := by
  unfold remaining
  induction E with
  | nil => cases hf
  | cons g l ih =>
    by_cases hgf : g = f
    · subst hgf
      have h1 : ((g :: l).filter (fun x => x ∉ V)).length =
          (l.filter (fun x => x ∉ V)).length + 1 := by
        rw [List.filter_cons_of_pos (by simpa using hn)]; rfl
      have h2 : ((g :: l).filter (fun x => x ∉ g :: V)).length =
          (l.filter (fun x => x ∉ g :: V)).length := by
        rw [List.filter_cons_of_neg (by simp)]
      have h3 := remaining_mono l V (g :: V) (by intro x hx; simp [hx])
      unfold remaining at h3
      omega
    · have hl : f ∈ l := (List.mem_cons.mp hf).resolve_left (fun h => hgf h.symm)
      have := ih hl
      by_cases hgV : g ∈ V
      · rw [List.filter_cons_of_neg (by simp [hgV]), List.filter_cons_of_neg (by simp [hgV])]
        exact this
      · rw [List.filter_cons_of_pos (by simp [hgV, hgf]), List.filter_cons_of_pos (by simp [hgV])]
        simpa using this

theorem remaining_le {α : Type} [DecidableEq α] (E V : List α) : remaining E V ≤ E.length :=
  List.length_filter_le _ _

/-- Distinct elements of `E` are at most as many as `E` has. -/
theorem nodup_length_le {α : Type} [DecidableEq α] (V E : List α) (hnd : V.Nodup)
    (h : ∀ x ∈ V, x ∈ E) : V.length ≤ E.length := by
  have key : V.length + remaining E V ≤ E.length := by
    induction V with
    | nil => simpa using remaining_le E []
    | cons x V ih =>
      have hx := List.nodup_cons.mp hnd
      have h1 := ih hx.2 (fun y hy => h y (by simp [hy]))
      have h2 := remaining_cons E V x (h x (by simp)) hx.1
      simp only [List.length_cons]
      omega
  omega

end Verif
