import Verif.Lowering
import Verif.PathSpec
import Verif.ListLemmas

/-! # Facts about the steps of lowering -/

namespace Verif

theorem follow_iff (e : Edge) : skipPatchEdges e = false ↔ Follow e := by
  unfold skipPatchEdges Follow
  cases e.sink <;> cases e.interproc <;> simp

theorem skip_iff (e : Edge) : skipPatchEdges e = true ↔ ¬ Follow e := by
  rw [← follow_iff]; simp

/-! ## The edges to redirect -/

section
variable {targets : Blk → List Edge} {stop : Blk → Bool}

/-- Blocks reachable through edges whose targets do not stop the search. -/
inductive SafeReach (targets : Blk → List Edge) (stop : Blk → Bool) : Blk → Blk → Prop
  | refl (b : Blk) : SafeReach targets stop b b
  | step {b c : Blk} {e : Edge} : SafeReach targets stop b c → e ∈ targets c → Follow e →
      stop e.trg = false → SafeReach targets stop b e.trg

theorem SafeReach.head {b c : Blk} {e : Edge} (he : e ∈ targets b) (hf : Follow e)
    (hs : stop e.trg = false) (h : SafeReach targets stop e.trg c) : SafeReach targets stop b c := by
  induction h with
  | refl => exact .step (.refl b) he hf hs
  | step _ h1 h2 h3 ih => exact .step ih h1 h2 h3

/-- The edge has been dealt with. -/
def EdgeDone (targets : Blk → List Edge) (stop : Blk → Bool) (s : RState) (e : Edge) : Prop :=
  (stop e.trg = true ∧ e ∈ s.redirect) ∨
    (stop e.trg = false ∧ ∀ e' ∈ targets e.trg, Follow e' → e' ∈ s.visited)

theorem EdgeDone.mono {s s' : RState} {e : Edge} (h : EdgeDone targets stop s e)
    (hr : ∀ x ∈ s.redirect, x ∈ s'.redirect) (hv : ∀ x ∈ s.visited, x ∈ s'.visited) :
    EdgeDone targets stop s' e :=
  h.imp (fun h => ⟨h.1, hr _ h.2⟩) (fun h => ⟨h.1, fun e' he hf => hv _ (h.2 e' he hf)⟩)

/-- Result of searching from a block or along a list of edges `es` of block `b`. -/
structure Searched (targets : Blk → List Edge) (stop : Blk → Bool) (b : Blk) (es : List Edge)
    (s s' : RState) : Prop where
  redirect : ∀ e ∈ s.redirect, e ∈ s'.redirect
  visited : ∀ e ∈ s.visited, e ∈ s'.visited
  all : ∀ e ∈ es, Follow e → e ∈ s'.visited
  done : ∀ e ∈ s'.visited, e ∈ s.visited ∨ EdgeDone targets stop s' e
  sound : ∀ e ∈ s'.redirect, e ∈ s.redirect ∨
    ∃ c, SafeReach targets stop b c ∧ e ∈ targets c ∧ Follow e ∧ stop e.trg = true

theorem redirectEdges_searched : ∀ (n : Nat) (s s' : RState) (b : Blk),
    redirectEdges targets stop n s b = some s' → Searched targets stop b (targets b) s s' := by
  intro n
  induction n with
  | zero => intro s s' b h; cases h
  | succ n ih =>
    intro s s' b h
    rw [redirectEdges] at h
    have loop : ∀ (es : List Edge) (s s' : RState), (∀ e ∈ es, e ∈ targets b) →
        rtEdges (redirectEdges targets stop n) stop es s = some s' →
        Searched targets stop b es s s' := by
      intro es
      induction es with
      | nil =>
        intro s s' _ h
        cases h
        exact ⟨fun _ h => h, fun _ h => h, by simp, fun _ h => .inl h, fun _ h => .inl h⟩
      | cons e es ihe =>
        intro s s' hsub h
        have hsub' : ∀ x ∈ es, x ∈ targets b := fun x hx => hsub x (by simp [hx])
        have heb : e ∈ targets b := hsub e (by simp)
        rw [rtEdges] at h
        by_cases h1 : skipPatchEdges e = true
        · rw [if_pos h1] at h
          have r := ihe s s' hsub' h
          refine ⟨r.redirect, r.visited, fun x hx hf => ?_, r.done, r.sound⟩
          rcases List.mem_cons.mp hx with rfl | hx
          · exact absurd hf ((skip_iff x).mp h1)
          · exact r.all x hx hf
        rw [if_neg h1] at h
        have hf : Follow e := (follow_iff e).mp (by simpa using h1)
        by_cases h2 : e ∈ s.visited
        · rw [if_pos h2] at h
          have r := ihe s s' hsub' h
          refine ⟨r.redirect, r.visited, fun x hx hf => ?_, r.done, r.sound⟩
          rcases List.mem_cons.mp hx with rfl | hx
          · exact r.visited x h2
          · exact r.all x hx hf
        rw [if_neg h2] at h
        dsimp only at h
        by_cases h3 : stop e.trg = true
        · rw [if_pos h3] at h
          have r := ihe _ s' hsub' h
          refine ⟨fun x hx => r.redirect x (by simp [hx]), fun x hx => r.visited x (by simp [hx]), ?_, ?_,
            ?_⟩
          · intro x hx hfx
            rcases List.mem_cons.mp hx with rfl | hx
            · exact r.visited x (by simp)
            · exact r.all x hx hfx
          · intro x hx
            rcases r.done x hx with hx' | hd
            · rcases List.mem_cons.mp hx' with rfl | hx'
              · exact .inr (.inl ⟨h3, r.redirect x (by simp)⟩)
              · exact .inl hx'
            · exact .inr hd
          · intro x hx
            rcases r.sound x hx with hx' | hd
            · rcases List.mem_cons.mp hx' with rfl | hx'
              · exact .inr ⟨b, .refl b, heb, hf, h3⟩
              · exact .inl hx'
            · exact .inr hd
        · rw [if_neg h3] at h
          have h3' : stop e.trg = false := by simpa using h3
          cases hv : redirectEdges targets stop n { s with visited := e :: s.visited } e.trg with
          | none => rw [hv] at h; cases h
          | some s1 =>
            rw [hv] at h
            have r1 := ih _ _ _ hv
            have r := ihe s1 s' hsub' h
            refine ⟨fun x hx => r.redirect x (r1.redirect x hx),
              fun x hx => r.visited x (r1.visited x (by simp [hx])), ?_, ?_, ?_⟩
            · intro x hx hfx
              rcases List.mem_cons.mp hx with rfl | hx
              · exact r.visited x (r1.visited x (by simp))
              · exact r.all x hx hfx
            · intro x hx
              rcases r.done x hx with hx' | hd
              · rcases r1.done x hx' with hx'' | hd
                · rcases List.mem_cons.mp hx'' with rfl | hx''
                  · exact .inr (.inr ⟨h3', fun e' he' hfe => r.visited _ (r1.all e' he' hfe)⟩)
                  · exact .inl hx''
                · exact .inr (hd.mono r.redirect r.visited)
              · exact .inr hd
            · intro x hx
              rcases r.sound x hx with hx' | hd
              · rcases r1.sound x hx' with hx'' | ⟨c, hc, hrest⟩
                · exact .inl hx''
                · exact .inr ⟨c, hc.head heb hf h3', hrest⟩
              · exact .inr hd
    exact loop (targets b) s s' (fun _ h => h) h

/-- The edges to redirect are those leading from the blocks reachable without stopping to the
blocks at which the search stops. -/
theorem mem_redirect_iff {n : Nat} {b : Blk} {r : RState}
    (h : redirectEdges targets stop n {} b = some r) (e : Edge) :
    e ∈ r.redirect ↔ ∃ c, SafeReach targets stop b c ∧ e ∈ targets c ∧ Follow e ∧ stop e.trg = true := by
  have hs := redirectEdges_searched n {} r b h
  constructor
  · intro he
    rcases hs.sound e he with h | h
    · cases h
    · exact h
  · rintro ⟨c, hc, he, hf, ht⟩
    have hdone : ∀ x ∈ r.visited, EdgeDone targets stop r x := fun x hx =>
      (hs.done x hx).resolve_left (by simp)
    have hall : ∀ x ∈ targets c, Follow x → x ∈ r.visited := by
      have : ∀ c, SafeReach targets stop b c → ∀ x ∈ targets c, Follow x → x ∈ r.visited := by
        intro c hc
        induction hc with
        | refl => exact hs.all
        | step _ h1 h2 h3 ih =>
          rcases hdone _ (ih _ h1 h2) with ⟨h4, _⟩ | ⟨_, h4⟩
          · rw [h3] at h4; cases h4
          · exact h4
      exact this c hc
    rcases hdone e (hall e he hf) with ⟨_, h⟩ | ⟨h, _⟩
    · exact h
    · rw [ht] at h; cases h

/-- Enough depth for the search. -/
theorem redirectEdges_total (E : List Edge) (B : List Blk) (hE : ∀ b ∈ B, ∀ e ∈ targets b, e ∈ E)
    (hcl : ∀ b ∈ B, ∀ e ∈ targets b, Follow e → e.trg ∈ B) :
    ∀ (n : Nat) (s : RState) (b : Blk), b ∈ B → remaining E s.visited < n →
      ∃ s', redirectEdges targets stop n s b = some s' := by
  intro n
  induction n with
  | zero => intro s b _ h; omega
  | succ n ih =>
    intro s b hb hn
    rw [redirectEdges]
    have loop : ∀ (es : List Edge) (s : RState), (∀ e ∈ es, e ∈ targets b) →
        remaining E s.visited < n + 1 → ∃ s', rtEdges (redirectEdges targets stop n) stop es s = some s' := by
      intro es
      induction es with
      | nil => intro s _ _; exact ⟨s, rfl⟩
      | cons e es ihe =>
        intro s hsub hs
        have hsub' : ∀ x ∈ es, x ∈ targets b := fun x hx => hsub x (by simp [hx])
        rw [rtEdges]
        by_cases h1 : skipPatchEdges e = true
        · rw [if_pos h1]; exact ihe s hsub' hs
        rw [if_neg h1]
        have hf : Follow e := (follow_iff e).mp (by simpa using h1)
        by_cases h2 : e ∈ s.visited
        · rw [if_pos h2]; exact ihe s hsub' hs
        rw [if_neg h2]
        dsimp only
        have hlt : remaining E (e :: s.visited) < remaining E s.visited :=
          remaining_cons E s.visited e (hE b hb e (hsub e (by simp))) h2
        by_cases h3 : stop e.trg = true
        · rw [if_pos h3]
          exact ihe _ hsub' (by show remaining E (e :: s.visited) < n + 1; omega)
        · rw [if_neg h3]
          obtain ⟨s1, hs1⟩ := ih { s with visited := e :: s.visited } e.trg
            (hcl b hb e (hsub e (by simp)) hf) (by show remaining E (e :: s.visited) < n; omega)
          rw [hs1]
          have r1 := redirectEdges_searched _ _ _ _ hs1
          refine ihe s1 hsub' ?_
          have : remaining E s1.visited ≤ remaining E (e :: s.visited) :=
            remaining_mono E _ _ r1.visited
          omega
    exact loop _ s (fun _ h => h) hn

end

/-! ## The new graph -/

theorem cloneEdges_dest (blocks : List Blk) (es : List Edge) (d0 d : Dest)
    (h : es.foldlM (cloneEdge blocks) d0 = some d) (e : Edge) (c : Bool) :
    d e c = if c = true ∧ e ∈ es ∧ Follow e then (e.trg, true) else d0 e c := by
  have := foldlM_prefix (fun done (d : Dest) => ∀ e c, d e c =
    if c = true ∧ e ∈ done ∧ Follow e then (e.trg, true) else d0 e c) (cloneEdge blocks) es [] d0 d
    (by
      intro done x a a' _ hP hx e c
      unfold cloneEdge at hx
      split at hx
      · rename_i hs
        cases hx
        rw [hP e c]
        have hnf := (skip_iff x).mp hs
        by_cases hex : e = x
        · subst hex; simp [hnf]
        · simp [hex]
      · rename_i hs
        have hf : Follow x := (follow_iff x).mp (by simpa using hs)
        split at hx
        · cases hx
          simp only [Dest.redirect]
          by_cases hex : e = x
          · subst hex
            cases c <;> simp [hf, hP]
          · simp [hex, hP e c]
        · cases hx)
    (by intro e c; simp) h
  simpa using this e c

theorem cloneCFG_dest {co : CodeObj} {f : Func} {d0 d : Dest} (h : cloneCFG true co f d0 = some d)
    (e : Edge) (c : Bool) :
    d e c = if c = true ∧ (∃ b ∈ co.blocks f, e ∈ co.targets b) ∧ Follow e then (e.trg, true)
      else d0 e c := by
  unfold cloneCFG at h
  rw [if_pos rfl] at h
  have := foldlM_prefix (fun done (d : Dest) => ∀ e c, d e c =
    if c = true ∧ (∃ b ∈ done, e ∈ co.targets b) ∧ Follow e then (e.trg, true) else d0 e c)
    (fun d b => (co.targets b).foldlM (cloneEdge (co.blocks f)) d) (co.blocks f) [] d0 d
    (by
      intro done b a a' _ hP hx e c
      rw [cloneEdges_dest _ _ _ _ hx e c, hP e c]
      by_cases h1 : c = true ∧ Follow e
      · by_cases h2 : e ∈ co.targets b
        · rw [if_pos ⟨h1.1, h2, h1.2⟩, if_pos ⟨h1.1, ⟨b, by simp, h2⟩, h1.2⟩]
        · rw [if_neg (fun h => h2 h.2.1)]
          by_cases h3 : ∃ b ∈ done, e ∈ co.targets b
          · obtain ⟨b', hb', he'⟩ := h3
            rw [if_pos ⟨h1.1, ⟨b', hb', he'⟩, h1.2⟩, if_pos ⟨h1.1, ⟨b', by simp [hb'], he'⟩, h1.2⟩]
          · rw [if_neg (fun h => h3 h.2.1), if_neg]
            rintro ⟨_, ⟨b', hb', he'⟩, _⟩
            rcases List.mem_append.mp hb' with hb' | hb'
            · exact h3 ⟨b', hb', he'⟩
            · have : b' = b := by simpa using hb'
              subst this; exact h2 he'
      · rw [if_neg (fun h => h1 ⟨h.1, h.2.2⟩), if_neg (fun h => h1 ⟨h.1, h.2.2⟩),
          if_neg (fun h => h1 ⟨h.1, h.2.2⟩)])
    (by intro e c; simp) h
  simpa using this e c

theorem redirectAll_dest {blocks : List Blk} {R : List Edge} {d0 d : Dest}
    (h : redirectAll true blocks R d0 = some d) (e : Edge) (c : Bool) :
    d e c = if c = false ∧ e ∈ R then (e.trg, true) else d0 e c := by
  unfold redirectAll at h
  rw [if_pos rfl] at h
  have := foldlM_prefix (fun done (d : Dest) => ∀ e c, d e c =
    if c = false ∧ e ∈ done then (e.trg, true) else d0 e c) _ R [] d0 d
    (by
      intro done x a a' _ hP hx e c
      split at hx
      · cases hx
        simp only [Dest.redirect]
        by_cases hex : e = x
        · subst hex
          cases c <;> simp [hP]
        · simp [hex, hP e c]
      · cases hx)
    (by intro e c; simp) h
  simpa using this e c

theorem cloneCFG_total (asserts : Bool) {co : CodeObj} {f : Func} (d0 : Dest)
    (hcl : ∀ b ∈ co.blocks f, ∀ e ∈ co.targets b, Follow e → e.trg ∈ co.blocks f) :
    ∃ d, cloneCFG asserts co f d0 = some d := by
  unfold cloneCFG
  split
  · obtain ⟨d, hd, _⟩ := foldlM_total (fun _ => True)
      (fun d b => (co.targets b).foldlM (cloneEdge (co.blocks f)) d) (co.blocks f) d0 (by
        intro b a hb _
        obtain ⟨d, hd, _⟩ := foldlM_total (fun _ => True) (cloneEdge (co.blocks f)) (co.targets b) a (by
          intro e a he _
          unfold cloneEdge
          split
          · exact ⟨_, rfl, trivial⟩
          · rename_i hs
            rw [if_pos (hcl b hb e he ((follow_iff e).mp (by simpa using hs)))]
            exact ⟨_, rfl, trivial⟩) trivial
        exact ⟨d, hd, trivial⟩) trivial
    exact ⟨d, hd⟩
  · exact ⟨d0, rfl⟩

theorem redirectAll_total (asserts : Bool) {blocks : List Blk} {R : List Edge} (d0 : Dest)
    (h : ∀ e ∈ R, e.trg ∈ blocks) : ∃ d, redirectAll asserts blocks R d0 = some d := by
  unfold redirectAll
  split
  · obtain ⟨d, hd, _⟩ := foldlM_total (fun _ => True) (fun (d : Dest) e =>
      if e.trg ∈ blocks then some (d.redirect e false (e.trg, true)) else none) R d0 (by
        intro e a he _
        rw [if_pos (h e he)]
        exact ⟨_, rfl, trivial⟩) trivial
    exact ⟨d, hd⟩
  · exact ⟨d0, rfl⟩

/-! ## Reachable blocks -/

section
variable {targets : Blk → List Edge} {d : Dest}

/-- Edges followed by `GetReachableBlocks`. -/
def Follow' (e : Edge) : Prop := Follow e ∧ e.type ≠ .ret

/-- `GetReachableBlocks` has added blocks and followed all their edges. -/
structure Explored (targets : Blk → List Edge) (d : Dest) (V V' : List PNode) : Prop where
  mono : ∀ n ∈ V, n ∈ V'
  closed : ∀ n ∈ V', n ∈ V ∨ ∀ e ∈ targets n.1, Follow' e → d e n.2 ∈ V'

theorem reachable_explored : ∀ (k : Nat) (V V' : List PNode) (n : PNode),
    reachableBlocks targets d k V n = some V' → n ∈ V' ∧ Explored targets d V V' := by
  intro k
  induction k with
  | zero => intro V V' n h; cases h
  | succ k ih =>
    intro V V' n h
    rw [reachableBlocks] at h
    split at h
    · rename_i hn
      cases h
      exact ⟨hn, fun _ h => h, fun _ h => .inl h⟩
    · have loop : ∀ (es : List Edge) (V V' : List PNode),
          grEdges (reachableBlocks targets d k) d n.2 es V = some V' →
          (∀ e ∈ es, Follow' e → d e n.2 ∈ V') ∧ Explored targets d V V' := by
        intro es
        induction es with
        | nil => intro V V' h; cases h; exact ⟨by simp, fun _ h => h, fun _ h => .inl h⟩
        | cons e es ihe =>
          intro V V' h
          rw [grEdges] at h
          have skipc : ¬ Follow' e → grEdges (reachableBlocks targets d k) d n.2 es V = some V' →
              (∀ x ∈ e :: es, Follow' x → d x n.2 ∈ V') ∧ Explored targets d V V' := by
            intro hnf h
            obtain ⟨a1, a2⟩ := ihe V V' h
            refine ⟨fun x hx hf => ?_, a2⟩
            rcases List.mem_cons.mp hx with rfl | hx
            · exact absurd hf hnf
            · exact a1 x hx hf
          split at h
          · rename_i h1
            exact skipc (fun hf => absurd h1 (by rw [hf.1.2.1]; decide)) h
          split at h
          · rename_i h1
            exact skipc (fun hf => absurd h1 (by rw [hf.1.1]; decide)) h
          split at h
          · rename_i h1
            exact skipc (fun hf => h1.elim hf.2 hf.1.2.2) h
          · cases hv : reachableBlocks targets d k V (d e n.2) with
            | none => rw [hv] at h; cases h
            | some V1 =>
              rw [hv] at h
              obtain ⟨b1, b2⟩ := ih _ _ _ hv
              obtain ⟨a1, a2⟩ := ihe V1 V' h
              refine ⟨fun x hx hf => ?_, fun x hx => a2.mono x (b2.mono x hx), fun x hx => ?_⟩
              · rcases List.mem_cons.mp hx with rfl | hx
                · exact a2.mono _ b1
                · exact a1 x hx hf
              · rcases a2.closed x hx with h1 | h1
                · rcases b2.closed x h1 with h2 | h2
                  · exact .inl h2
                  · exact .inr fun e he hf => a2.mono _ (h2 e he hf)
                · exact .inr h1
      obtain ⟨a1, a2⟩ := loop _ _ _ h
      refine ⟨a2.mono n (by simp), fun x hx => a2.mono x (by simp [hx]), fun x hx => ?_⟩
      rcases a2.closed x hx with h1 | h1
      · rcases List.mem_cons.mp h1 with rfl | h1
        · exact .inr a1
        · exact .inl h1
      · exact .inr h1

/-- Every block on a walk from the start is found. -/
theorem walk_reachable {k : Nat} {V : List PNode} {n0 : PNode}
    (h : reachableBlocks targets d k [] n0 = some V) {n n' : PNode} {es : List Edge}
    (hw : CopyWalk targets Follow' d n es n') (hn : n ∈ V) : n' ∈ V := by
  have hx := (reachable_explored _ _ _ _ h).2
  induction hw with
  | nil => exact hn
  | cons he hf _ ih =>
    exact ih ((hx.closed _ hn).resolve_left (by simp) _ he hf)

theorem reachable_total (N : List PNode) (hcl : ∀ n ∈ N, ∀ e ∈ targets n.1, Follow' e → d e n.2 ∈ N) :
    ∀ (k : Nat) (V : List PNode) (n : PNode), n ∈ N → remaining N V < k →
      ∃ V', reachableBlocks targets d k V n = some V' := by
  intro k
  induction k with
  | zero => intro V n _ h; omega
  | succ k ih =>
    intro V n hn hk
    rw [reachableBlocks]
    split
    · exact ⟨V, rfl⟩
    · rename_i hnv
      have hlt := remaining_cons N V n hn hnv
      have loop : ∀ (es : List Edge) (V : List PNode), (∀ e ∈ es, e ∈ targets n.1) →
          remaining N V < k → ∃ V', grEdges (reachableBlocks targets d k) d n.2 es V = some V' := by
        intro es
        induction es with
        | nil => intro V _ _; exact ⟨V, rfl⟩
        | cons e es ihe =>
          intro V hsub hV
          have hsub' : ∀ x ∈ es, x ∈ targets n.1 := fun x hx => hsub x (by simp [hx])
          rw [grEdges]
          split
          · exact ihe V hsub' hV
          rename_i h1
          split
          · exact ihe V hsub' hV
          rename_i h2
          split
          · exact ihe V hsub' hV
          rename_i h3
          have hf : Follow' e := ⟨⟨by simpa using h2, by simpa using h1, fun h => h3 (.inr h)⟩,
            fun h => h3 (.inl h)⟩
          obtain ⟨V1, hV1⟩ := ih V (d e n.2) (hcl n hn e (hsub e (by simp)) hf) hV
          rw [hV1]
          have := remaining_mono N V V1 (reachable_explored _ _ _ _ hV1).2.mono
          exact ihe V1 hsub' (by omega)
      exact loop _ _ (fun _ h => h) (by omega)

end

/-! ## Coalescing -/

theorem mem_sourcesOf {co : CodeObj} {f : Func} {d : Dest} {n : PNode} {e : Edge} {c : Bool} :
    (e, c) ∈ sourcesOf co f d n ↔ (∃ b ∈ co.blocks f, e ∈ co.targets b) ∧ d e c = n := by
  unfold sourcesOf
  rw [List.mem_flatMap]
  constructor
  · rintro ⟨x, hx, hm⟩
    rw [List.mem_filterMap] at hm
    obtain ⟨c', _, hc'⟩ := hm
    split at hc'
    · rename_i hd
      cases hc'
      exact ⟨List.mem_flatMap.mp hx, hd⟩
    · cases hc'
  · rintro ⟨hx, hd⟩
    refine ⟨e, List.mem_flatMap.mpr hx, List.mem_filterMap.mpr ⟨c, by cases c <;> simp, ?_⟩⟩
    rw [if_pos hd]

/-- Which edges keep their push and which blocks get one. -/
structure Coalesced (edges : List Edge) (d : Dest) (reach : List PNode) (R : List Edge) (s : CState) :
    Prop where
  keep : ∀ e ∈ edges, (e ∈ s.redirect ↔ e ∈ R ∧ d e false ∉ s.inst)
  sub : ∀ e ∈ s.redirect, e ∈ R
  clone : ∀ b ∈ s.inst, b.2 = true
  only : ∀ e ∈ edges, ∀ c, d e c ∈ s.inst → (c = false ∧ e ∈ R) ∨ (e.src, c) ∉ reach
  some : ∀ b ∈ s.inst, ∃ e ∈ R, d e false = b

theorem coalesce_spec (co : CodeObj) (f : Func) (d : Dest) (reach : List PNode) (R : List Edge)
    (edges : List Edge) (hedges : ∀ e, e ∈ edges ↔ ∃ b ∈ co.blocks f, e ∈ co.targets b) :
    Coalesced edges d reach R (coalesce (sourcesOf co f d) reach R) := by
  unfold coalesce
  have h0 : Coalesced edges d reach R { redirect := R } :=
    ⟨by simp, by simp, by simp, by simp, by simp⟩
  revert h0
  generalize ({ redirect := R } : CState) = s0
  have : ∀ (l : List PNode) (s : CState), Coalesced edges d reach R s →
      Coalesced edges d reach R (l.foldl (coalesceBlock (sourcesOf co f d) reach) s) := by
    intro l
    induction l with
    | nil => intro s h; exact h
    | cons b l ih =>
      intro s h
      refine ih _ ?_
      unfold coalesceBlock
      split
      · exact h
      rename_i hb
      have hb' : b.2 = true := by simpa using hb
      dsimp only
      split
      · rename_i hcond
        simp only [Bool.and_eq_true, Bool.not_eq_true', decide_eq_true_eq, beq_iff_eq] at hcond
        obtain ⟨⟨hnc, hpos⟩, hzero⟩ := hcond
        have hsrc : ∀ e c, e ∈ edges → d e c = b → (e, c) ∈ sourcesOf co f d b := fun e c he hd =>
          mem_sourcesOf.mpr ⟨(hedges e).mp he, hd⟩
        have hsome : ∃ e ∈ R, d e false = b := by
          obtain ⟨p, hp⟩ := List.length_pos_iff_exists_mem.mp hpos
          rw [List.mem_filter] at hp
          obtain ⟨⟨e, c⟩, hp1, hp2⟩ := (⟨p, hp.1, hp.2⟩ : ∃ p : Edge × Bool, p ∈ sourcesOf co f d b ∧
            s.has p = true)
          simp only [CState.has, Bool.and_eq_true, Bool.not_eq_true', List.contains_iff_mem] at hp2
          rw [mem_sourcesOf] at hp1
          refine ⟨e, h.sub e hp2.2, ?_⟩
          have hc : c = false := hp2.1
          rw [← hc]; exact hp1.2
        refine ⟨?_, ?_, ?_, ?_, ?_⟩
        · intro e he
          simp only [List.mem_filter, Bool.not_eq_true', List.mem_cons, not_or]
          rw [h.keep e he]
          constructor
          · rintro ⟨⟨h1, h2⟩, h3⟩
            refine ⟨h1, fun hd => ?_, h2⟩
            have := hsrc e false he hd
            rw [List.contains_eq_mem, decide_eq_false_iff_not] at h3
            exact h3 this
          · rintro ⟨h1, h2, h3⟩
            refine ⟨⟨h1, h3⟩, ?_⟩
            rw [List.contains_eq_mem, decide_eq_false_iff_not]
            exact fun hm => h2 (mem_sourcesOf.mp hm).2
        · intro e he
          exact h.sub e (List.mem_filter.mp he).1
        · intro x hx
          rcases List.mem_cons.mp hx with rfl | hx
          · exact hb'
          · exact h.clone x hx
        · intro e he c hd
          by_cases hold : d e c ∈ s.inst
          · exact h.only e he c hold
          have hd' : d e c = b := (List.mem_cons.mp hd).resolve_right hold
          have hm := hsrc e c he hd'
          by_cases hhas : s.has (e, c) = true
          · simp only [CState.has, Bool.and_eq_true, Bool.not_eq_true', List.contains_iff_mem] at hhas
            exact .inl ⟨hhas.1, h.sub e hhas.2⟩
          · right
            intro hr
            have hoth : (e, c) ∈ (sourcesOf co f d b).filter (fun p => !s.has p) :=
              List.mem_filter.mpr ⟨hm, by simpa using hhas⟩
            have hnotcatch : e.type ≠ .catch := by
              intro hcat
              rw [List.any_eq_false] at hnc
              exact hnc (e, c) hoth (by simp [hcat])
            have : (e, c) ∈ (((sourcesOf co f d b).filter fun p => !s.has p).filter fun p =>
                p.1.type ≠ .catch ∧ (p.1.src, p.2) ∈ reach) :=
              List.mem_filter.mpr ⟨hoth, by simp [hnotcatch, hr]⟩
            rw [List.length_eq_zero_iff] at hzero
            rw [hzero] at this
            cases this
        · intro x hx
          rcases List.mem_cons.mp hx with rfl | hx
          · exact hsome
          · exact h.some x hx
      · exact h
  exact this reach s0

end Verif
