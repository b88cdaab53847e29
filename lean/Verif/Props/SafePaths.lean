import Verif.SafePaths

/-!
# C29: the number of safe paths
-/

namespace Verif

/-! ## Specification -/

/-- An edge inside the function other than to an exception handler. -/
def Intra (e : Edge) : Prop := e.sink = false ∧ e.interproc = false ∧ e.type ≠ .catch

/-- A path of safe blocks from `b` to an exit block. -/
inductive SafePath (targets : Blk → List Edge) (unsafeB exits : List Blk) : Blk → Prop
  | exit {b} : b ∉ unsafeB → b ∈ exits → SafePath targets unsafeB exits b
  | step {b e} : b ∉ unsafeB → e ∈ targets b → Intra e →
      SafePath targets unsafeB exits e.trg → SafePath targets unsafeB exits b

/-! ## Facts about one visit -/

section
variable {targets : Blk → List Edge} {unsafeB exits : List Blk}

/-- The visited edges only grow, stay distinct, and come from the graph. -/
structure Grows (targets : Blk → List Edge) (V V' : List Edge) : Prop where
  mono : ∀ e ∈ V, e ∈ V'
  len : V.length ≤ V'.length
  nodup : V.Nodup → V'.Nodup
  orig : ∀ e ∈ V', e ∈ V ∨ ∃ b, e ∈ targets b

theorem Grows.refl (V : List Edge) : Grows targets V V :=
  ⟨fun _ h => h, Nat.le_refl _, id, fun _ h => .inl h⟩

theorem Grows.trans {V V' V'' : List Edge} (h : Grows targets V V') (h' : Grows targets V' V'') :
    Grows targets V V'' :=
  ⟨fun e he => h'.mono e (h.mono e he), Nat.le_trans h.len h'.len, fun hn => h'.nodup (h.nodup hn),
    fun e he => (h'.orig e he).elim (fun h1 => h.orig e h1) .inr⟩

theorem Grows.cons {V : List Edge} {e : Edge} {b : Blk} (hb : e ∈ targets b) (hn : e ∉ V) :
    Grows targets V (e :: V) :=
  ⟨fun _ h => by simp [h], by simp, fun h => List.nodup_cons.mpr ⟨hn, h⟩, fun x hx => by
    rcases List.mem_cons.mp hx with rfl | hx
    · exact .inr ⟨b, hb⟩
    · exact .inl hx⟩

/-- What a step of the edge loop can be. -/
theorem cpEdges_cons_cases {visit : List Edge → Blk → Option (Nat × List Edge)} {e : Edge}
    {es : List Edge} {c : Nat} {V : List Edge} {r : Nat × List Edge}
    (h : cpEdges visit (e :: es) c V = some r) :
    ((¬ Intra e ∨ e ∈ V) ∧ cpEdges visit es c V = some r) ∨
    (Intra e ∧ e ∉ V ∧ e.type = .indirect ∧ r = (0, V)) ∨
    (Intra e ∧ e ∉ V ∧ e.type ≠ .indirect ∧ ∃ n V1, visit (e :: V) e.trg = some (n, V1) ∧
      cpEdges visit es (c + n) V1 = some r) := by
  unfold cpEdges at h
  by_cases h1 : e.sink
  · rw [if_pos h1] at h
    exact .inl ⟨.inl fun hi => absurd h1 (by rw [hi.1]; decide), h⟩
  rw [if_neg h1] at h
  by_cases h2 : e.interproc
  · rw [if_pos h2] at h
    exact .inl ⟨.inl fun hi => absurd h2 (by rw [hi.2.1]; decide), h⟩
  rw [if_neg h2] at h
  by_cases h3 : e.type = .catch
  · rw [if_pos h3] at h
    exact .inl ⟨.inl fun hi => hi.2.2 h3, h⟩
  rw [if_neg h3] at h
  have hi : Intra e := ⟨by simpa using h1, by simpa using h2, h3⟩
  by_cases h4 : e ∈ V
  · rw [if_pos h4] at h
    exact .inl ⟨.inr h4, h⟩
  rw [if_neg h4] at h
  by_cases h5 : e.type = .indirect
  · rw [if_pos h5] at h
    cases h
    exact .inr (.inl ⟨hi, h4, h5, rfl⟩)
  rw [if_neg h5] at h
  cases hv : visit (e :: V) e.trg with
  | none => rw [hv] at h; cases h
  | some p =>
    obtain ⟨n, V1⟩ := p
    rw [hv] at h
    exact .inr (.inr ⟨hi, h4, h5, n, V1, rfl, h⟩)

/-- A positive count means that there is a safe path. -/
theorem countPaths_path : ∀ (n : Nat) (V V' : List Edge) (b : Blk) (c : Nat),
    countPaths targets unsafeB exits n V b = some (c, V') → 0 < c →
      SafePath targets unsafeB exits b := by
  intro n
  induction n with
  | zero => intro V V' b c h; cases h
  | succ n ih =>
    intro V V' b c h hc
    rw [countPaths] at h
    split at h
    · cases h; exact absurd hc (by decide)
    · rename_i hu
      split at h
      · rename_i he; exact .exit hu he
      · have loop : ∀ (es : List Edge) (c0 : Nat) (V : List Edge), (∀ e ∈ es, e ∈ targets b) →
            cpEdges (countPaths targets unsafeB exits n) es c0 V = some (c, V') →
            (0 < c0 → SafePath targets unsafeB exits b) → SafePath targets unsafeB exits b := by
          intro es
          induction es with
          | nil =>
            intro c0 V _ h h0
            cases h
            exact h0 hc
          | cons e es ihe =>
            intro c0 V hsub h h0
            rcases cpEdges_cons_cases h with ⟨_, h⟩ | ⟨_, _, _, h⟩ | ⟨hi, _, _, m, V1, hv, h⟩
            · exact ihe c0 V (fun x hx => hsub x (by simp [hx])) h h0
            · cases h; exact absurd hc (by decide)
            · refine ihe (c0 + m) V1 (fun x hx => hsub x (by simp [hx])) h (fun hpos => ?_)
              by_cases hm : 0 < m
              · exact .step hu (hsub e (by simp)) hi (ih _ _ _ _ hv hm)
              · exact h0 (by omega)
        exact loop _ _ _ (fun _ h => h) h (fun h => absurd h (by decide))

/-- Growth and the bound on the count. -/
theorem countPaths_grows : ∀ (n : Nat) (V V' : List Edge) (b : Blk) (c : Nat),
    countPaths targets unsafeB exits n V b = some (c, V') →
      Grows targets V V' ∧ c + V.length ≤ 1 + V'.length := by
  intro n
  induction n with
  | zero => intro V V' b c h; cases h
  | succ n ih =>
    intro V V' b c h
    rw [countPaths] at h
    split at h
    · cases h; exact ⟨.refl _, by omega⟩
    · split at h
      · cases h; exact ⟨.refl _, by omega⟩
      · have loop : ∀ (es : List Edge) (c0 : Nat) (V : List Edge), (∀ e ∈ es, e ∈ targets b) →
            cpEdges (countPaths targets unsafeB exits n) es c0 V = some (c, V') →
            Grows targets V V' ∧ c + V.length ≤ c0 + V'.length := by
          intro es
          induction es with
          | nil => intro c0 V _ h; cases h; exact ⟨.refl _, by omega⟩
          | cons e es ihe =>
            intro c0 V hsub h
            have hsub' : ∀ x ∈ es, x ∈ targets b := fun x hx => hsub x (by simp [hx])
            rcases cpEdges_cons_cases h with ⟨_, h⟩ | ⟨_, _, _, h⟩ | ⟨_, hV, _, m, V1, hv, h⟩
            · exact ihe c0 V hsub' h
            · cases h; exact ⟨.refl _, by omega⟩
            · obtain ⟨g1, l1⟩ := ih _ _ _ _ hv
              obtain ⟨g2, l2⟩ := ihe _ _ hsub' h
              simp only [List.length_cons] at l1
              exact ⟨((Grows.cons (hsub e (by simp)) hV).trans g1).trans g2, by omega⟩
        obtain ⟨g, l⟩ := loop _ _ _ (fun _ h => h) h
        exact ⟨g, by omega⟩

/-- Nothing more can be found from block `b` once the edges in `V` have been visited. -/
def Finished (targets : Blk → List Edge) (unsafeB exits : List Blk) (V : List Edge) (b : Blk) :
    Prop :=
  b ∈ unsafeB ∨ (b ∉ exits ∧ ∀ e ∈ targets b, Intra e → e ∈ V)

theorem Finished.mono {V V' : List Edge} {b : Blk} (h : Finished targets unsafeB exits V b)
    (hm : ∀ e ∈ V, e ∈ V') : Finished targets unsafeB exits V' b :=
  h.imp id fun ⟨h1, h2⟩ => ⟨h1, fun e he hi => hm e (h2 e he hi)⟩

/-- A visit returning zero finishes its block and the targets of all new edges. -/
theorem countPaths_zero (hind : ∀ b, ∀ e ∈ targets b, Intra e → e.type ≠ .indirect) :
    ∀ (n : Nat) (V V' : List Edge) (b : Blk) (c : Nat),
    countPaths targets unsafeB exits n V b = some (c, V') → c = 0 →
      Finished targets unsafeB exits V' b ∧
        ∀ e ∈ V', e ∈ V ∨ Finished targets unsafeB exits V' e.trg := by
  intro n
  induction n with
  | zero => intro V V' b c h; cases h
  | succ n ih =>
    intro V V' b c h hc
    rw [countPaths] at h
    split at h
    · rename_i hu; cases h; exact ⟨.inl hu, fun e he => .inl he⟩
    · split at h
      · cases h; cases hc
      · rename_i hx
        have loop : ∀ (es : List Edge) (c0 : Nat) (V : List Edge), (∀ e ∈ es, e ∈ targets b) →
            cpEdges (countPaths targets unsafeB exits n) es c0 V = some (c, V') →
            (∀ e ∈ V, e ∈ V') ∧ c0 = 0 ∧ (∀ e ∈ es, Intra e → e ∈ V') ∧
              ∀ e ∈ V', e ∈ V ∨ Finished targets unsafeB exits V' e.trg := by
          intro es
          induction es with
          | nil => intro c0 V _ h; cases h; exact ⟨fun _ h => h, hc, by simp, fun e he => .inl he⟩
          | cons e es ihe =>
            intro c0 V hsub h
            have hsub' : ∀ x ∈ es, x ∈ targets b := fun x hx => hsub x (by simp [hx])
            rcases cpEdges_cons_cases h with ⟨hskip, h⟩ | ⟨hi, _, h5, _⟩ | ⟨_, _, _, m, V1, hv, h⟩
            · obtain ⟨a1, a2, a3, a4⟩ := ihe c0 V hsub' h
              refine ⟨a1, a2, fun x hx hi => ?_, a4⟩
              rcases List.mem_cons.mp hx with rfl | hx
              · rcases hskip with h | h
                · exact absurd hi h
                · exact a1 x h
              · exact a3 x hx hi
            · exact absurd h5 (hind b e (hsub e (by simp)) hi)
            · obtain ⟨a1, a2, a3, a4⟩ := ihe _ _ hsub' h
              have hm : m = 0 := by omega
              obtain ⟨g1, _⟩ := countPaths_grows _ _ _ _ _ hv
              obtain ⟨b1, b2⟩ := ih _ _ _ _ hv hm
              refine ⟨fun x hx => a1 x (g1.mono x (by simp [hx])), by omega, fun x hx hi => ?_,
                fun x hx => ?_⟩
              · rcases List.mem_cons.mp hx with rfl | hx
                · exact a1 x (g1.mono x (by simp))
                · exact a3 x hx hi
              · rcases a4 x hx with h | h
                · rcases b2 x h with h | h
                  · rcases List.mem_cons.mp h with rfl | h
                    · exact .inr (b1.mono a1)
                    · exact .inl h
                  · exact .inr (h.mono a1)
                · exact .inr h
        obtain ⟨a1, _, a3, a4⟩ := loop _ _ _ (fun _ h => h) h
        exact ⟨.inr ⟨hx, a3⟩, a4⟩

/-- The recursion bound is large enough. -/
theorem countPaths_total (E : List Edge) (blocks : List Blk)
    (hE : ∀ b ∈ blocks, ∀ e ∈ targets b, e ∈ E)
    (hcl : ∀ b ∈ blocks, ∀ e ∈ targets b, Intra e → e.trg ∈ blocks) :
    ∀ (n : Nat) (V : List Edge) (b : Blk), b ∈ blocks → remaining E V < n →
      ∃ r, countPaths targets unsafeB exits n V b = some r := by
  intro n
  induction n with
  | zero => intro V b _ h; omega
  | succ n ih =>
    intro V b hb hlt
    rw [countPaths]
    split
    · exact ⟨_, rfl⟩
    split
    · exact ⟨_, rfl⟩
    have loop : ∀ (es : List Edge) (c0 : Nat) (V : List Edge), (∀ e ∈ es, e ∈ targets b) →
        remaining E V < n + 1 →
        ∃ r, cpEdges (countPaths targets unsafeB exits n) es c0 V = some r := by
      intro es
      induction es with
      | nil => intro c0 V _ _; exact ⟨_, rfl⟩
      | cons e es ihe =>
        intro c0 V hsub hlt
        have hsub' : ∀ x ∈ es, x ∈ targets b := fun x hx => hsub x (by simp [hx])
        unfold cpEdges
        by_cases h1 : e.sink
        · rw [if_pos h1]; exact ihe _ _ hsub' hlt
        rw [if_neg h1]
        by_cases h2 : e.interproc
        · rw [if_pos h2]; exact ihe _ _ hsub' hlt
        rw [if_neg h2]
        by_cases h3 : e.type = .catch
        · rw [if_pos h3]; exact ihe _ _ hsub' hlt
        rw [if_neg h3]
        by_cases h4 : e ∈ V
        · rw [if_pos h4]; exact ihe _ _ hsub' hlt
        rw [if_neg h4]
        by_cases h5 : e.type = .indirect
        · rw [if_pos h5]; exact ⟨_, rfl⟩
        rw [if_neg h5]
        have heb := hsub e (by simp)
        have h6 := remaining_cons E V e (hE b hb e heb) h4
        obtain ⟨⟨m, V1⟩, hv⟩ := ih (e :: V) e.trg
          (hcl b hb e heb ⟨by simpa using h1, by simpa using h2, h3⟩) (by omega)
        rw [hv]
        have h7 := remaining_mono E _ _ (countPaths_grows _ _ _ _ _ hv).1.mono
        exact ihe _ _ hsub' (by omega)
    exact loop _ _ _ (fun _ h => h) hlt

end

/-! ## C29 -/

/-- **C29, soundness.** A positive number of safe paths means that a path of safe blocks
leads from the entry to an exit. -/
theorem C29_positive (co : CodeObj) (f : Func) (unsafeB : List Blk) (c : Nat)
    (h : safePathCount co f unsafeB = some c) (hc : 0 < c) :
    SafePath co.targets unsafeB (co.exitBlocks f) (co.entry f) := by
  unfold safePathCount at h
  cases hr : countPaths co.targets unsafeB (co.exitBlocks f) ((funcEdges co f).length + 1) []
      (co.entry f) with
  | none => rw [hr] at h; cases h
  | some r =>
    rw [hr] at h
    cases h
    exact countPaths_path _ _ _ _ _ hr hc

/-- **C29, completeness.** Without indirect jumps, the existence of a safe path makes the
count positive. -/
theorem C29_complete (co : CodeObj) (f : Func) (unsafeB : List Blk) (c : Nat)
    (hind : ∀ b, ∀ e ∈ co.targets b, Intra e → e.type ≠ .indirect)
    (h : safePathCount co f unsafeB = some c)
    (hp : SafePath co.targets unsafeB (co.exitBlocks f) (co.entry f)) : 0 < c := by
  unfold safePathCount at h
  cases hr : countPaths co.targets unsafeB (co.exitBlocks f) ((funcEdges co f).length + 1) []
      (co.entry f) with
  | none => rw [hr] at h; cases h
  | some r =>
    obtain ⟨c', V'⟩ := r
    rw [hr] at h
    cases h
    refine Nat.pos_of_ne_zero fun h0 => ?_
    obtain ⟨h1, h2⟩ := countPaths_zero hind _ _ _ _ _ hr h0
    have h3 : ∀ e ∈ V', Finished co.targets unsafeB (co.exitBlocks f) V' e.trg := fun e he =>
      (h2 e he).resolve_left (by simp)
    have key : ∀ b, SafePath co.targets unsafeB (co.exitBlocks f) b →
        ¬ Finished co.targets unsafeB (co.exitBlocks f) V' b := by
      intro b hb
      induction hb with
      | exit hu hx =>
        rintro (h | ⟨h, _⟩)
        · exact hu h
        · exact h hx
      | step hu he hi _ ih =>
        rintro (h | ⟨_, h⟩)
        · exact hu h
        · exact ih (h3 _ (h _ he hi))
    exact key _ hp h1

/-- **C29, bound.** The count never exceeds one plus the number of edges. -/
theorem C29_bound (co : CodeObj) (f : Func) (unsafeB : List Blk) (c : Nat) (E : List Edge)
    (hE : ∀ b, ∀ e ∈ co.targets b, e ∈ E) (h : safePathCount co f unsafeB = some c) :
    c ≤ 1 + E.length := by
  unfold safePathCount at h
  cases hr : countPaths co.targets unsafeB (co.exitBlocks f) ((funcEdges co f).length + 1) []
      (co.entry f) with
  | none => rw [hr] at h; cases h
  | some r =>
    obtain ⟨c', V'⟩ := r
    rw [hr] at h
    cases h
    obtain ⟨g, l⟩ := countPaths_grows _ _ _ _ _ hr
    have := nodup_length_le V' E (g.nodup List.nodup_nil) (fun e he => by
      rcases g.orig e he with h | ⟨b, h⟩
      · cases h
      · exact hE b e h)
    simp only [List.length_nil] at l
    show c' ≤ _
    omega

/-- The count always terminates on a function whose inner edges stay inside it. -/
theorem C29_total (co : CodeObj) (f : Func) (unsafeB : List Blk) (he : co.entry f ∈ co.blocks f)
    (hcl : ∀ b ∈ co.blocks f, ∀ e ∈ co.targets b, Intra e → e.trg ∈ co.blocks f) :
    ∃ c, safePathCount co f unsafeB = some c := by
  obtain ⟨r, hr⟩ := countPaths_total (unsafeB := unsafeB) (exits := co.exitBlocks f)
    (funcEdges co f) (co.blocks f)
    (fun b hb e he => List.mem_flatMap.mpr ⟨b, hb, he⟩) hcl ((funcEdges co f).length + 1) []
    (co.entry f) he (Nat.lt_succ_of_le (remaining_le _ _))
  exact ⟨r.1, by unfold safePathCount; rw [hr]; rfl⟩

/-- A loop (block 1) between the entry and two exits, one of them behind an unsafe block 2. -/
def loopGraph : CodeObj where
  funcs := [0]
  addr := id
  entry := id
  blocks := fun _ => [0, 1, 2, 3, 4]
  exitBlocks := fun _ => [3, 4]
  targets := fun b =>
    if b = 0 then [⟨0, 0, 1, .fallthrough, false, false⟩]
    else if b = 1 then [⟨1, 1, 1, .condTaken, false, false⟩, ⟨2, 1, 2, .condNotTaken, false, false⟩,
      ⟨3, 1, 3, .direct, false, false⟩]
    else if b = 2 then [⟨4, 2, 4, .direct, false, false⟩]
    else []
  start := id
  last := id
  funcsAt := fun _ => []
  linkage := fun _ => none

example : safePathCount loopGraph 0 [2] = some 1 ∧ safePathCount loopGraph 0 [] = some 2 ∧
    safePathCount loopGraph 0 [1] = some 0 := by decide

/-- With an indirect jump the converse fails: the count found before it is dropped. -/
theorem C29_indirect_lost : ∃ (co : CodeObj) (f : Func),
    safePathCount co f [] = some 0 ∧ SafePath co.targets [] (co.exitBlocks f) (co.entry f) := by
  refine ⟨{ loopGraph with targets := fun b =>
    if b = 0 then [⟨0, 0, 3, .condTaken, false, false⟩, ⟨1, 0, 1, .indirect, false, false⟩] else [] },
    0, by decide, ?_⟩
  exact .step (e := ⟨0, 0, 3, .condTaken, false, false⟩) (by decide) (by decide)
    ⟨rfl, rfl, by decide⟩ (.exit (by decide) (by decide))

end Verif
