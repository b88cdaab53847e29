import Verif.HeapLoc

/-!
C46: merging abstract locations of the heap analysis.
-/

namespace Verif

namespace ALoc

/-! ## Upper bound -/

theorem assign_means {a : ALoc} {c : CVal} (h : a.Means c) : a.assign.Means c := by
  cases h with
  | heap e => exact .heap (by cases a <;> exact e)
  | arg e => exact .arg (by cases a <;> exact e)
  | either e k => exact .either (by cases a <;> exact e) k
  | top e => exact .top (by cases a <;> exact e)
  | slot => exact .slot
  | slotOf k =>
    refine .slotOf ?_
    cases k with
    | heap e => exact .heap e
    | arg e => exact .arg e
    | either e k => exact .either e k
    | top e => exact .top e
    | slot => exact .slot
    | slotOf k => exact .slot

theorem copy_means {a : ALoc} {c : CVal} (h : a.Means c) : a.copy.Means c := by
  cases h with
  | heap e => exact .heap (by cases a <;> exact e)
  | arg e => exact .arg (by cases a <;> exact e)
  | either e k => exact .either (by cases a <;> exact e) k
  | top e => exact .top (by cases a <;> exact e)
  | slot => exact .slot
  | slotOf k => exact .slotOf (assign_means k)

theorem top_means {t : ALoc} (h : t.type = .top) (c : CVal) : t.Means c := .top h

theorem not_means_bottom {a : ALoc} {c : CVal} (h : a.type = .bottom) : ¬ a.Means c := by
  intro k
  cases k with
  | heap e => rw [h] at e; cases e
  | arg e => rw [h] at e; cases e
  | either e _ => rw [h] at e; cases e
  | top e => rw [h] at e; cases e
  | slot => cases h
  | slotOf _ => cases h

theorem means_either {a : ALoc} {c : CVal} (h : a.Means c)
    (ht : a.type = .heap ∨ a.type = .arg ∨ a.type = .heapOrArg) : c = .heap ∨ c = .arg := by
  cases h with
  | heap _ => exact .inl rfl
  | arg _ => exact .inr rfl
  | either _ k => exact k
  | top e => rw [e] at ht; simp at ht
  | slot => simp [type] at ht
  | slotOf _ => simp [type] at ht

theorem mixed_types {t o : Loc} (h : mixed t o = true) :
    (t = .heap ∨ t = .arg ∨ t = .heapOrArg) ∧ (o = .heap ∨ o = .arg ∨ o = .heapOrArg) := by
  revert h; cases t <;> cases o <;> decide

/-- Two locations of the same type other than STACK mean the same. -/
theorem means_type {a b : ALoc} {c : CVal} (h : a.Means c) (e : b.type = a.type)
    (hs : a.type ≠ .stack) : b.Means c := by
  cases h with
  | heap k => exact .heap (e.trans k)
  | arg k => exact .arg (e.trans k)
  | either k l => exact .either (e.trans k) l
  | top k => exact .top (e.trans k)
  | slot => exact absurd rfl hs
  | slotOf _ => exact absurd rfl hs

end ALoc

open ALoc in
/-- C46.  The merge stands for everything both sides stand for, at every nesting, whenever
its `DCHECK` passes. -/
theorem C46_upper_bound : ∀ {a b : ALoc} {c : CVal}, meetOk a b = true →
    a.Means c ∨ b.Means c → (meet a b).Means c := by
  intro a
  induction a with
  | last t h =>
    intro b c hok hc
    unfold meet
    unfold meetOk at hok
    unfold meetHead; unfold meetHeadOk at hok
    split
    · exact .top rfl
    rename_i h1
    rw [if_neg h1] at hok
    split
    · rename_i h2
      rcases hc with hc | hc
      · exact absurd hc (not_means_bottom (by exact h2))
      · exact assign_means hc
    rename_i h2
    rw [if_neg h2] at hok
    split
    · rename_i h3
      rcases hc with hc | hc
      · exact hc
      · exact absurd hc (not_means_bottom h3)
    rename_i h3
    rw [if_neg h3] at hok
    split
    · rename_i h4
      split
      · rename_i h5
        split
        · exact .top rfl
        · rename_i h6
          rcases hc with hc | hc
          · exact hc
          · subst h5
            have h6 : h = b.height := Classical.not_not.mp h6
            cases hc with
            | heap e => rw [h4] at e; cases e
            | arg e => rw [h4] at e; cases e
            | either e _ => rw [h4] at e; cases e
            | top e => rw [h4] at e; cases e
            | slot => simp [height] at h6; subst h6; exact .slot
            | slotOf _ => simp [height] at h6; subst h6; exact .slot
      · rename_i h5
        rcases hc with hc | hc
        · exact hc
        · exact means_type hc h4.symm (by rw [h4]; exact h5)
    · rename_i h4
      rw [if_neg h4] at hok
      rw [if_pos hok]
      obtain ⟨m1, m2⟩ := mixed_types hok
      refine .either rfl ?_
      rcases hc with hc | hc
      · exact means_either hc m1
      · exact means_either hc m2
  | ptr t h to ih =>
    intro b c hok hc
    unfold meet
    unfold meetOk at hok
    unfold meetHead; unfold meetHeadOk at hok
    split
    · exact .top rfl
    rename_i h1
    rw [if_neg h1] at hok
    split
    · rename_i h2
      rcases hc with hc | hc
      · exact absurd hc (not_means_bottom (by exact h2))
      · exact assign_means hc
    rename_i h2
    rw [if_neg h2] at hok
    split
    · rename_i h3
      rcases hc with hc | hc
      · exact hc
      · exact absurd hc (not_means_bottom h3)
    rename_i h3
    rw [if_neg h3] at hok
    split
    · rename_i h4
      rw [if_pos h4] at hok
      split
      · rename_i h5
        rw [if_pos h5] at hok
        split
        · exact .top rfl
        · rename_i h6
          rw [if_neg h6] at hok
          rw [Bool.and_eq_true] at hok
          subst h5
          have h6 : h = b.height := Classical.not_not.mp h6
          rcases hc with hc | hc
          · cases hc with
            | heap e => cases e
            | arg e => cases e
            | either e _ => cases e
            | top e => cases e
            | slotOf k => exact .slotOf (ih hok.2 (.inl k))
          · cases hc with
            | heap e => rw [h4] at e; cases e
            | arg e => rw [h4] at e; cases e
            | either e _ => rw [h4] at e; cases e
            | top e => rw [h4] at e; cases e
            | slot =>
              simp [height] at h6; subst h6
              exact .slotOf (ih hok.2 (.inr (.top rfl)))
            | slotOf k =>
              simp [height] at h6; subst h6
              exact .slotOf (ih hok.2 (.inr (copy_means k)))
      · rename_i h5
        rcases hc with hc | hc
        · exact hc
        · exact means_type hc h4.symm (by rw [h4]; exact h5)
    · rename_i h4
      rw [if_neg h4] at hok
      rw [if_pos hok]
      obtain ⟨m1, m2⟩ := mixed_types hok
      refine .either rfl ?_
      rcases hc with hc | hc
      · exact means_either hc m1
      · exact means_either hc m2

/-! ## Normal forms

A null `points_to` under STACK means the same as a `points_to` of type TOP. -/

/-- Abstract locations up to meaning. -/
inductive NLoc where
  | bot | heap | arg | hoa | top | slot (h : Int) (x : NLoc)

namespace NLoc

def join : NLoc → NLoc → NLoc
  | top, _ => top
  | bot, y => y
  | heap, y => match y with
    | bot => heap | heap => heap | arg => hoa | hoa => hoa | top => top | slot _ _ => top
  | arg, y => match y with
    | bot => arg | heap => hoa | arg => arg | hoa => hoa | top => top | slot _ _ => top
  | hoa, y => match y with
    | bot => hoa | heap => hoa | arg => hoa | hoa => hoa | top => top | slot _ _ => top
  | slot h x, y => match y with
    | bot => slot h x | heap => top | arg => top | hoa => top | top => top
    | slot h' x' => if h = h' then slot h (join x x') else top

@[simp] theorem join_top (x : NLoc) : join x top = top := by cases x <;> rfl
@[simp] theorem join_bot (x : NLoc) : join x bot = x := by cases x <;> rfl

theorem join_comm : ∀ x y : NLoc, join x y = join y x := by
  intro x
  induction x with
  | slot h x ih =>
    intro y
    cases y with
    | slot h' x' =>
      simp only [join]
      by_cases e : h = h'
      · subst e; simp [ih]
      · rw [if_neg e, if_neg (Ne.symm e)]
    | _ => rfl
  | _ => intro y; cases y <;> rfl

theorem join_idem : ∀ x : NLoc, join x x = x := by
  intro x
  induction x with
  | slot h x ih => simp [join, ih]
  | _ => rfl

theorem join_assoc : ∀ x y z : NLoc, join (join x y) z = join x (join y z) := by
  intro x
  induction x with
  | slot h x ih =>
    intro y z
    cases y with
    | slot h' x' =>
      cases z with
      | slot h'' x'' =>
        by_cases e : h = h'
        · subst e
          by_cases e' : h = h''
          · subst e'; simp [join, ih]
          · simp [join, e']
        · by_cases e' : h' = h''
          · subst e'; simp [join, e]
          · simp [join, e, e']
      | bot => simp
      | top => simp
      | _ => by_cases e : h = h' <;> simp [join, e]
    | top => simp [join]
    | bot => simp [join]
    | _ => cases z <;> simp [join]
  | _ => intro y z; cases y <;> cases z <;> first | rfl | (rename_i h x h' x'; by_cases e : h = h' <;> simp [join, e])

/-- Meaning of a normal form. -/
inductive Means : NLoc → CVal → Prop
  | heap : Means heap .heap
  | arg : Means arg .arg
  | hoaHeap : Means hoa .heap
  | hoaArg : Means hoa .arg
  | top {c} : Means top c
  | slot {h x c} : Means x c → Means (slot h x) (.slot h c)

/-- No BOTTOM below a slot: such a location stands for nothing although it is not BOTTOM. -/
def Proper : NLoc → Prop
  | slot _ bot => False
  | slot _ x => Proper x
  | _ => True

theorem proper_slot {h : Int} {x : NLoc} (hp : Proper (slot h x)) : Proper x ∧ x ≠ bot := by
  cases x <;> simp_all [Proper]

theorem inhabited : ∀ {x : NLoc}, Proper x → x ≠ bot → ∃ c, Means x c := by
  intro x
  induction x with
  | bot => intro _ h; exact absurd rfl h
  | heap => intro _ _; exact ⟨_, .heap⟩
  | arg => intro _ _; exact ⟨_, .arg⟩
  | hoa => intro _ _; exact ⟨_, .hoaArg⟩
  | top => intro _ _; exact ⟨.other, .top⟩
  | slot h x ih =>
    intro hp _
    obtain ⟨p1, p2⟩ := proper_slot hp
    obtain ⟨c, hc⟩ := ih p1 p2
    exact ⟨_, .slot hc⟩

/-- The join is below every bound. -/
theorem join_least : ∀ {x y d : NLoc}, Proper x → Proper y →
    (∀ c, Means x c → Means d c) → (∀ c, Means y c → Means d c) →
    ∀ c, Means (join x y) c → Means d c := by
  intro x
  induction x with
  | bot => intro y d _ _ _ h2 c hc; exact h2 c hc
  | top => intro y d _ _ h1 _ c hc; exact h1 c .top
  | heap =>
    intro y d _ py h1 h2 c hc
    have k1 := h1 _ .heap
    cases y with
    | bot => exact h1 c hc
    | heap => exact h1 c hc
    | top => exact h2 c .top
    | arg =>
      have k2 := h2 _ .arg
      cases hc with
      | hoaHeap => exact k1
      | hoaArg => exact k2
    | hoa => exact h2 c hc
    | slot h z =>
      obtain ⟨p1, p2⟩ := proper_slot py
      obtain ⟨c', hc'⟩ := inhabited p1 p2
      have k2 := h2 _ (.slot hc')
      cases k2 with
      | top => exact .top
      | slot _ => cases k1
  | arg =>
    intro y d _ py h1 h2 c hc
    have k1 := h1 _ .arg
    cases y with
    | bot => exact h1 c hc
    | arg => exact h1 c hc
    | top => exact h2 c .top
    | heap =>
      have k2 := h2 _ .heap
      cases hc with
      | hoaHeap => exact k2
      | hoaArg => exact k1
    | hoa => exact h2 c hc
    | slot h z =>
      obtain ⟨p1, p2⟩ := proper_slot py
      obtain ⟨c', hc'⟩ := inhabited p1 p2
      have k2 := h2 _ (.slot hc')
      cases k2 with
      | top => exact .top
      | slot _ => cases k1
  | hoa =>
    intro y d _ py h1 h2 c hc
    have k1 := h1 _ .hoaArg
    cases y with
    | top => exact h2 c .top
    | slot h z =>
      obtain ⟨p1, p2⟩ := proper_slot py
      obtain ⟨c', hc'⟩ := inhabited p1 p2
      have k2 := h2 _ (.slot hc')
      cases k2 with
      | top => exact .top
      | slot _ => cases k1
    | _ => exact h1 c hc
  | slot h x ih =>
    intro y d px py h1 h2 c hc
    obtain ⟨p1, p2⟩ := proper_slot px
    obtain ⟨c', hc'⟩ := inhabited p1 p2
    have k1 := h1 _ (.slot hc')
    cases y with
    | bot => exact h1 c hc
    | top => exact h2 c .top
    | heap =>
      have k2 := h2 _ .heap
      cases k1 with
      | top => exact .top
      | slot _ => cases k2
    | arg =>
      have k2 := h2 _ .arg
      cases k1 with
      | top => exact .top
      | slot _ => cases k2
    | hoa =>
      have k2 := h2 _ .hoaArg
      cases k1 with
      | top => exact .top
      | slot _ => cases k2
    | slot h' y =>
      obtain ⟨q1, q2⟩ := proper_slot py
      obtain ⟨c'', hc''⟩ := inhabited q1 q2
      have k2 := h2 _ (.slot hc'')
      cases k1 with
      | top => exact .top
      | @slot _ z _ kz =>
        cases k2 with
        | slot kz' =>
          simp only [join, if_true] at hc
          cases hc with
          | slot hc =>
            refine .slot (ih p1 q1 (fun c hc => ?_) (fun c hc => ?_) _ hc)
            · cases h1 _ (.slot hc) with | slot k => exact k
            · cases h2 _ (.slot hc) with | slot k => exact k

end NLoc

namespace ALoc

/-- Normal form. -/
def nf : ALoc → NLoc
  | last t h => match t with
    | .heap => .heap | .arg => .arg | .heapOrArg => .hoa | .top => .top | .bottom => .bot
    | .stack => .slot h .top
  | ptr t h to => match t with
    | .heap => .heap | .arg => .arg | .heapOrArg => .hoa | .top => .top | .bottom => .bot
    | .stack => .slot h (nf to)

theorem nf_means (a : ALoc) (c : CVal) : a.Means c ↔ (nf a).Means c := by
  induction a generalizing c with
  | last t h =>
    constructor
    · intro hm
      cases hm with
      | heap e => cases e; exact .heap
      | arg e => cases e; exact .arg
      | either e k => cases e; rcases k with rfl | rfl; exact .hoaHeap; exact .hoaArg
      | top e => cases e; exact .top
      | slot => exact .slot .top
    · intro hm
      cases t
      · cases hm; exact .heap rfl
      · cases hm; exact .slot
      · cases hm; exact .arg rfl
      · cases hm; exact .either rfl (.inl rfl); exact .either rfl (.inr rfl)
      · exact .top rfl
      · cases hm
  | ptr t h to ih =>
    constructor
    · intro hm
      cases hm with
      | heap e => cases e; exact .heap
      | arg e => cases e; exact .arg
      | either e k => cases e; rcases k with rfl | rfl; exact .hoaHeap; exact .hoaArg
      | top e => cases e; exact .top
      | slotOf k => exact .slot ((ih _).1 k)
    · intro hm
      cases t
      · cases hm; exact .heap rfl
      · cases hm with | slot k => exact .slotOf ((ih _).2 k)
      · cases hm; exact .arg rfl
      · cases hm; exact .either rfl (.inl rfl); exact .either rfl (.inr rfl)
      · exact .top rfl
      · cases hm

/-- Normal form by type only. -/
def nfType : Loc → Int → NLoc → NLoc
  | .heap, _, _ => .heap
  | .arg, _, _ => .arg
  | .heapOrArg, _, _ => .hoa
  | .top, _, _ => .top
  | .bottom, _, _ => .bot
  | .stack, h, x => .slot h x

/-- What is below the head. -/
def nfBelow : ALoc → NLoc
  | last _ _ => .top
  | ptr _ _ to => nf to

theorem nf_head (a : ALoc) : nf a = nfType a.type a.height (nfBelow a) := by
  cases a with
  | last t h => cases t <;> rfl
  | ptr t h to => cases t <;> rfl

theorem shallow_cases {a : ALoc} (h : a.Shallow) :
    (∃ t h, a = last t h) ∨ ∃ t h t' h', a = ptr t h (last t' h') := by
  cases a with
  | last t n => exact .inl ⟨t, n, rfl⟩
  | ptr t n to =>
    cases to with
    | last t' n' => exact .inr ⟨t, n, t', n', rfl⟩
    | ptr => cases h

theorem shallow_assign {a : ALoc} (h : a.Shallow) : a.assign = a := by
  rcases shallow_cases h with ⟨_, _, rfl⟩ | ⟨_, _, _, _, rfl⟩ <;> rfl

theorem shallow_pointTo {a : ALoc} (h : a.Shallow) :
    a.pointTo.Shallow ∧ nf a.pointTo = nfBelow a := by
  rcases shallow_cases h with ⟨_, _, rfl⟩ | ⟨_, _, _, _, rfl⟩ <;> exact ⟨rfl, rfl⟩

theorem nf_meet : ∀ {a b : ALoc}, b.Shallow → meetOk a b = true →
    nf (meet a b) = (nf a).join (nf b) := by
  have flatCase : ∀ (t : Loc) (h : Int) (x : NLoc) (b : ALoc), t ≠ .stack →
      t ≠ .top → t ≠ .bottom → b.type ≠ .top → b.type ≠ .bottom →
      (b.type = t ∨ mixed t b.type = true) →
      (if b.type = t then nfType t h x else .hoa) = (nfType t h x).join (nf b) := by
    intro t h x b h1 h2 h3 h4 h5 h6
    rw [nf_head b]
    revert h1 h2 h3 h4 h5 h6
    cases t <;> cases b.type <;> simp [nfType, NLoc.join, mixed]
  intro a
  induction a with
  | last t h =>
    intro b hb hok
    unfold meet meetHead
    unfold meetOk meetHeadOk at hok
    by_cases h1 : t = .top ∨ b.type = .top
    · rw [if_pos h1]
      rcases h1 with rfl | h1
      · rfl
      · rw [nf_head b, h1]; simp [nfType]; rfl
    rw [if_neg h1] at hok ⊢
    by_cases h2 : t = .bottom
    · rw [if_pos h2, shallow_assign hb, h2]; rfl
    rw [if_neg h2] at hok ⊢
    by_cases h3 : b.type = .bottom
    · rw [if_pos h3, nf_head b, h3]; simp [nfType]
    rw [if_neg h3] at hok ⊢
    simp only [not_or] at h1
    by_cases h4 : b.type = t
    · rw [if_pos h4] at hok ⊢
      by_cases h5 : t = .stack
      · rw [if_pos h5] at hok ⊢
        subst h5
        rw [nf_head b, h4]
        by_cases h6 : h ≠ b.height
        · rw [if_pos h6]; simp [nf, nfType, NLoc.join, h6]; rfl
        · rw [if_neg h6]
          simp only [ne_eq, Classical.not_not] at h6
          simp [nf, nfType, NLoc.join, h6]
      · rw [if_neg h5]
        have := flatCase t h .top b h5 h1.1 h2 h1.2 h3 (.inl h4)
        rw [if_pos h4] at this
        rw [nf_head (last t h)]
        exact this
    · rw [if_neg h4] at hok ⊢
      rw [if_pos hok]
      have h5 : t ≠ .stack := by rintro rfl; revert hok; cases b.type <;> decide
      have := flatCase t h .top b h5 h1.1 h2 h1.2 h3 (.inr hok)
      rw [if_neg h4] at this
      rw [nf_head (last t h)]
      exact this
  | ptr t h to ih =>
    intro b hb hok
    unfold meet meetHead
    unfold meetOk meetHeadOk at hok
    by_cases h1 : t = .top ∨ b.type = .top
    · rw [if_pos h1]
      rcases h1 with rfl | h1
      · rfl
      · rw [nf_head b, h1]; simp [nfType]; rfl
    rw [if_neg h1] at hok ⊢
    by_cases h2 : t = .bottom
    · rw [if_pos h2, shallow_assign hb, h2]; rfl
    rw [if_neg h2] at hok ⊢
    by_cases h3 : b.type = .bottom
    · rw [if_pos h3, nf_head b, h3]; simp [nfType]
    rw [if_neg h3] at hok ⊢
    simp only [not_or] at h1
    by_cases h4 : b.type = t
    · rw [if_pos h4] at hok ⊢
      by_cases h5 : t = .stack
      · rw [if_pos h5] at hok ⊢
        subst h5
        rw [nf_head b, h4]
        by_cases h6 : h ≠ b.height
        · rw [if_pos h6]; simp [nf, nfType, NLoc.join, h6]; rfl
        · rw [if_neg h6] at hok ⊢
          simp only [ne_eq, Classical.not_not] at h6
          rw [Bool.and_eq_true] at hok
          obtain ⟨s1, s2⟩ := shallow_pointTo hb
          have := ih s1 hok.2
          rw [s2] at this
          simp [nf, nfType, NLoc.join, h6, this]
      · rw [if_neg h5]
        have := flatCase t h (nf to) b h5 h1.1 h2 h1.2 h3 (.inl h4)
        rw [if_pos h4] at this
        rw [nf_head (ptr t h to)]
        exact this
    · rw [if_neg h4] at hok ⊢
      rw [if_pos hok]
      have h5 : t ≠ .stack := by rintro rfl; revert hok; cases b.type <;> decide
      have := flatCase t h (nf to) b h5 h1.1 h2 h1.2 h3 (.inr hok)
      rw [if_neg h4] at this
      rw [nf_head (ptr t h to)]
      exact this

end ALoc

open ALoc

/-- C46.  Commutative in meaning, for locations which the assertions admit. -/
theorem C46_commutative {a b : ALoc} (ha : a.Shallow) (hb : b.Shallow) (h1 : meetOk a b = true)
    (h2 : meetOk b a = true) (c : CVal) : (meet a b).Means c ↔ (meet b a).Means c := by
  rw [nf_means, nf_means, nf_meet hb h1, nf_meet ha h2, NLoc.join_comm]

/-- C46.  Associative in meaning. -/
theorem C46_associative {a b d : ALoc} (hb : b.Shallow) (hd : d.Shallow)
    (hbd : (meet b d).Shallow) (h1 : meetOk a b = true)
    (h2 : meetOk (meet a b) d = true) (h3 : meetOk b d = true) (h4 : meetOk a (meet b d) = true)
    (c : CVal) : (meet (meet a b) d).Means c ↔ (meet a (meet b d)).Means c := by
  rw [nf_means, nf_means, nf_meet hd h2, nf_meet hb h1, nf_meet hbd h4, nf_meet hd h3,
    NLoc.join_assoc]

/-- C46.  Idempotent in meaning. -/
theorem C46_idempotent {a : ALoc} (ha : a.Shallow) (h : meetOk a a = true) (c : CVal) :
    (meet a a).Means c ↔ a.Means c := by
  rw [nf_means, nf_means, nf_meet ha h, NLoc.join_idem]

/-- C46.  Nothing smaller would do: whatever stands for both sides stands for the merge.
(`Proper`: no BOTTOM below STACK; such a location stands for no value.) -/
theorem C46_least {a b d : ALoc} (pa : (nf a).Proper) (pb : (nf b).Proper) (hb : b.Shallow)
    (h : meetOk a b = true) (h1 : ∀ c, a.Means c → d.Means c) (h2 : ∀ c, b.Means c → d.Means c)
    (c : CVal) (hc : (meet a b).Means c) : d.Means c := by
  rw [nf_means, nf_meet hb h] at hc
  rw [nf_means]
  exact NLoc.join_least pa pb (fun c hc => (nf_means d c).1 (h1 c ((nf_means a c).2 hc)))
    (fun c hc => (nf_means d c).1 (h2 c ((nf_means b c).2 hc))) c hc

/-- C46.  Exactly which merges are undefined, for locations without `points_to`: a stack
location with one that is neither a stack location nor TOP nor BOTTOM. -/
theorem C46_undefined_iff (t t' : Loc) (h h' : Int) :
    meetOk (.last t h) (.last t' h') = false ↔
      (t = .stack ∧ (t' = .heap ∨ t' = .arg ∨ t' = .heapOrArg)) ∨
      (t' = .stack ∧ (t = .heap ∨ t = .arg ∨ t = .heapOrArg)) := by
  unfold meetOk meetHeadOk
  cases t <;> cases t' <;> simp [type, height, mixed, assignOk]
  by_cases e : h = h' <;> simp [e]

/-- C46, refutation of the unrestricted claim: with assertions compiled out, the merge of a
stack location and a heap location is not an upper bound, and the result depends on the
order. -/
theorem C46_refuted :
    ¬ (meet (stackAt (-16)) (flat .heap)).Means .heap ∧
    ¬ (meet (flat .heap) (stackAt (-16))).Means (.slot (-16) .other) ∧
    meet (stackAt (-16)) (flat .heap) ≠ meet (flat .heap) (stackAt (-16)) := by
  refine ⟨?_, ?_, by decide⟩
  · intro h
    rw [show meet (stackAt (-16)) (flat .heap) = .last .stack (-16) by decide] at h
    cases h with
    | heap e => cases e
    | top e => cases e
    | either e _ => cases e
  · intro h
    rw [show meet (flat .heap) (stackAt (-16)) = .last .heap intMax by decide] at h
    cases h with
    | top e => cases e
    | either e _ => cases e

/-- C46.  The comparison of the code is finer than meaning: merging in the other order can
give a location which `operator==` tells apart although both stand for the same values. -/
theorem C46_comparison_finer :
    same (meet (stackAt (-16)) (.ptr .stack (-16) (flat .heap)))
      (meet (.ptr .stack (-16) (flat .heap)) (stackAt (-16))) = false ∧
    ∀ c, (meet (stackAt (-16)) (.ptr .stack (-16) (flat .heap))).Means c ↔
      (meet (.ptr .stack (-16) (flat .heap)) (stackAt (-16))).Means c :=
  ⟨by decide, C46_commutative rfl rfl (by decide) (by decide)⟩

/-- Hypotheses of the laws on nested locations with different contents. -/
example : (ALoc.ptr .stack (-16) (flat .heap)).Shallow ∧
    (ALoc.ptr .stack (-16) (flat .arg)).Shallow ∧
    meetOk (.ptr .stack (-16) (flat .heap)) (.ptr .stack (-16) (flat .arg)) = true ∧
    meet (.ptr .stack (-16) (flat .heap)) (.ptr .stack (-16) (flat .arg)) =
      .ptr .stack (-16) (flat .heapOrArg) ∧
    (nf (.ptr .stack (-16) (flat .heap))).Proper := ⟨rfl, rfl, by decide, by decide, trivial⟩

end Verif
