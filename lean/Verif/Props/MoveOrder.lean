import Verif.BlockLive
import Verif.Props.BlockLive

/-!
# C56: the moved push never comes after the moved check of the same block
-/

namespace Verif

/-- How many dead registers, up to two, there are before the first of these instructions. -/
def deadCount (l : List BInsn) : Nat := min 2 (deadRegs l).length

theorem improve_cases (sc : Scan) (addr height : Nat) (dead : List Reg) (h : sc.saveCount < 2) :
    (sc.improve addr height dead = sc ∧ min 2 dead.length ≤ sc.saveCount) ∨
    ((sc.improve addr height dead).newAddr = addr ∧
      (sc.improve addr height dead).saveCount = min 2 dead.length ∧
      sc.saveCount < min 2 dead.length) := by
  unfold Scan.improve
  split
  · rename_i hd
    refine .inr ⟨rfl, ?_, by omega⟩
    dsimp only
    split <;> omega
  · exact .inl ⟨rfl, by omega⟩

/-- The place found by the entry scan has more dead registers than every place before it. -/
theorem entryScan_best : ∀ (l : List BInsn) (height : Nat) (sc : Scan), sc.saveCount < 2 →
    entryScan l height sc = sc ∨
    ∃ pre i post, l = pre ++ i :: post ∧ (entryScan l height sc).newAddr = i.addr ∧
      sc.saveCount < deadCount (i :: post) ∧
      ∀ a x b, pre = a ++ x :: b → deadCount (x :: (b ++ i :: post)) < deadCount (i :: post) := by
  intro l
  induction l with
  | nil => intro h sc _; exact .inl rfl
  | cons i rest ih =>
    intro height sc hlt
    rw [entryScan]
    -- the scan after this instruction, whatever the height
    have key : ∀ (r : Scan) (sc1 : Scan), sc1 = sc.improve i.addr height (deadRegs (i :: rest)) →
        (r = sc1 ∨ (sc1.saveCount ≠ 2 ∧ ∃ h', r = entryScan rest h' sc1)) →
        r = sc ∨ ∃ pre j post, i :: rest = pre ++ j :: post ∧ r.newAddr = j.addr ∧
          sc.saveCount < deadCount (j :: post) ∧
          ∀ a x b, pre = a ++ x :: b → deadCount (x :: (b ++ j :: post)) < deadCount (j :: post) := by
      intro r sc1 e hr
      subst e
      have himp := improve_cases sc i.addr height (deadRegs (i :: rest)) hlt
      have base : (sc.improve i.addr height (deadRegs (i :: rest)) = sc ∧
            deadCount (i :: rest) ≤ sc.saveCount) ∨
          ((sc.improve i.addr height (deadRegs (i :: rest))).newAddr = i.addr ∧
            (sc.improve i.addr height (deadRegs (i :: rest))).saveCount = deadCount (i :: rest) ∧
            sc.saveCount < deadCount (i :: rest)) := himp
      rcases hr with rfl | ⟨hne, h', rfl⟩
      · rcases base with ⟨k, _⟩ | ⟨k1, _, k3⟩
        · exact .inl k
        · exact .inr ⟨[], i, rest, rfl, k1, k3, fun a x b h => by cases a <;> cases h⟩
      · have hle : (sc.improve i.addr height (deadRegs (i :: rest))).saveCount < 2 := by
          rcases base with ⟨k, _⟩ | ⟨_, k2, _⟩
          · rw [k]; exact hlt
          · rw [k2] at hne ⊢
            have : deadCount (i :: rest) ≤ 2 := Nat.min_le_left ..
            omega
        rcases ih h' _ hle with k | ⟨pre, j, post, k1, k2, k3, k4⟩
        · rw [k]
          rcases base with ⟨k, _⟩ | ⟨k1, _, k3⟩
          · exact .inl k
          · exact .inr ⟨[], i, rest, rfl, k1, k3, fun a x b h => by cases a <;> cases h⟩
        · have hi : deadCount (i :: rest) < deadCount (j :: post) ∧
              sc.saveCount < deadCount (j :: post) := by
            rcases base with ⟨k, kk⟩ | ⟨_, k2', k3'⟩
            · rw [k] at k3; omega
            · rw [k2'] at k3; omega
          refine .inr ⟨i :: pre, j, post, by rw [k1]; rfl, k2, hi.2, fun a x b h => ?_⟩
          cases a with
          | nil =>
            obtain ⟨rfl, rfl⟩ := List.cons.inj h
            rw [← k1]; exact hi.1
          | cons y a =>
            obtain ⟨_, h⟩ := List.cons.inj h
            exact k4 a x b h
    split
    · exact key _ _ rfl (.inl rfl)
    · rename_i hne
      split
      · exact key _ _ rfl (.inr ⟨hne, _, rfl⟩)
      · split
        · exact key _ _ rfl (.inl rfl)
        · split
          · exact key _ _ rfl (.inl rfl)
          · exact key _ _ rfl (.inr ⟨hne, _, rfl⟩)

/-- The place found by the exit scan has more dead registers than every place after it. -/
theorem exitScan_best : ∀ (rev suffix : List BInsn) (height : Nat) (sc : Scan), sc.saveCount < 2 →
    exitScan rev suffix height sc = sc ∨
    ∃ r1 i r2, rev = r1 ++ i :: r2 ∧ (exitScan rev suffix height sc).newAddr = i.addr ∧
      sc.saveCount < deadCount (i :: (r1.reverse ++ suffix)) ∧
      ∀ a x b, r1 = a ++ x :: b → x.op ≠ .ret →
        deadCount (x :: (a.reverse ++ suffix)) < deadCount (i :: (r1.reverse ++ suffix)) := by
  intro rev
  induction rev with
  | nil => intro _ h sc _; exact .inl rfl
  | cons i rev ih =>
    intro suffix height sc hlt
    rw [exitScan]
    have lift : ∀ (h' : Nat) (sc1 : Scan), sc1.saveCount < 2 → sc.saveCount ≤ sc1.saveCount →
        (i.op ≠ .ret → deadCount (i :: suffix) ≤ sc1.saveCount) →
        exitScan rev (i :: suffix) h' sc1 = sc1 ∨
        ∃ r1 j r2, i :: rev = r1 ++ j :: r2 ∧
          (exitScan rev (i :: suffix) h' sc1).newAddr = j.addr ∧
          sc.saveCount < deadCount (j :: (r1.reverse ++ suffix)) ∧
          ∀ a x b, r1 = a ++ x :: b → x.op ≠ .ret →
            deadCount (x :: (a.reverse ++ suffix)) < deadCount (j :: (r1.reverse ++ suffix)) := by
      intro h' sc1 hlt1 hle hi
      rcases ih (i :: suffix) h' sc1 hlt1 with k | ⟨r1, j, r2, k1, k2, k3, k4⟩
      · exact .inl k
      · refine .inr ⟨i :: r1, j, r2, by rw [k1]; rfl, k2, ?_, fun a x b h hx => ?_⟩
        · simp only [List.reverse_cons, List.append_assoc, List.singleton_append]
          omega
        · simp only [List.reverse_cons, List.append_assoc, List.singleton_append]
          cases a with
          | nil =>
            obtain ⟨rfl, _⟩ := List.cons.inj h
            have := hi hx
            simp only [List.reverse_nil, List.nil_append]
            omega
          | cons y a =>
            obtain ⟨rfl, h'⟩ := List.cons.inj h
            have := k4 a x b h' hx
            simpa using this
    split
    · rename_i hret
      rcases lift height sc hlt (Nat.le_refl _) (fun h => absurd hret h) with k | k
      · exact .inl k
      · exact .inr k
    · split
      · exact .inl rfl
      · split
        · exact .inl rfl
        · dsimp only
          generalize (if i.op = .pop then height + 8 else height) = h1
          have base : (sc.improve i.addr h1 (deadRegs (i :: suffix)) = sc ∧
                deadCount (i :: suffix) ≤ sc.saveCount) ∨
              ((sc.improve i.addr h1 (deadRegs (i :: suffix))).newAddr = i.addr ∧
                (sc.improve i.addr h1 (deadRegs (i :: suffix))).saveCount = deadCount (i :: suffix) ∧
                sc.saveCount < deadCount (i :: suffix)) :=
            improve_cases sc i.addr h1 (deadRegs (i :: suffix)) hlt
          have here : sc.improve i.addr h1 (deadRegs (i :: suffix)) = sc ∨
              ∃ r1 j r2, i :: rev = r1 ++ j :: r2 ∧
                (sc.improve i.addr h1 (deadRegs (i :: suffix))).newAddr = j.addr ∧
                sc.saveCount < deadCount (j :: (r1.reverse ++ suffix)) ∧
                ∀ a x b, r1 = a ++ x :: b → x.op ≠ .ret →
                  deadCount (x :: (a.reverse ++ suffix)) < deadCount (j :: (r1.reverse ++ suffix)) := by
            rcases base with ⟨k, _⟩ | ⟨k1, _, k3⟩
            · exact .inl k
            · exact .inr ⟨[], i, rev, rfl, k1, k3, fun a x b h => by cases a <;> cases h⟩
          split
          · exact here
          · rename_i hne
            have hle : (sc.improve i.addr h1 (deadRegs (i :: suffix))).saveCount < 2 ∧
                sc.saveCount ≤ (sc.improve i.addr h1 (deadRegs (i :: suffix))).saveCount ∧
                deadCount (i :: suffix) ≤ (sc.improve i.addr h1 (deadRegs (i :: suffix))).saveCount := by
              rcases base with ⟨k, kk⟩ | ⟨_, k2, k3⟩
              · rw [k]; omega
              · rw [k2] at hne ⊢
                have : deadCount (i :: suffix) ≤ 2 := Nat.min_le_left ..
                omega
            rcases lift h1 _ hle.1 hle.2.1 (fun _ => hle.2.2) with k | k
            · rw [k]; exact here
            · exact .inr k

/-- A block as decoded: increasing addresses, and a return comes last and overwrites no general
register but `rsp`. -/
structure BlockShape (l : List BInsn) : Prop where
  sorted : l.Pairwise fun a b => a.addr < b.addr
  ret : ∀ a i b, l = a ++ i :: b → i.op = .ret → b = [] ∧ ∀ r, i.kills r = false

/-- **C56.** If both snippets of a block are moved, the push is placed at or before the check. -/
theorem C56_push_before_check {l : List BInsn} (hl : BlockShape l) {me mx : MoveInst}
    (he : entryData l = some me) (hx : exitData l = some mx) : me.newAddr ≤ mx.newAddr := by
  unfold entryData at he
  unfold exitData at hx
  dsimp only at he hx
  split at he
  · rename_i h1
    cases he
    split at hx
    · rename_i h2
      cases hx
      show (entryScan l 0 {}).newAddr ≤ (exitScan l.reverse [] 0 {}).newAddr
      rcases entryScan_best l 0 {} (by decide) with k | ⟨pre, i, post, e1, e2, e3, e4⟩
      · rw [k] at h1; exact absurd h1.1 (by decide)
      rcases exitScan_best l.reverse [] 0 {} (by decide) with k | ⟨r1, j, r2, x1, x2, x3, x4⟩
      · rw [k] at h2; exact absurd h2.1 (by decide)
      rw [e2, x2]
      have hrev : l = r2.reverse ++ j :: r1.reverse := by
        have := congrArg List.reverse x1
        simpa using this
      have hord : ∀ {a b c : List BInsn} {x y : BInsn}, l = a ++ x :: (b ++ y :: c) →
          x.addr < y.addr := by
        intro a b c x y h
        have := hl.sorted
        rw [h, List.pairwise_append] at this
        exact (List.pairwise_cons.mp this.2.1).1 y (by simp)
      have := e1.symm.trans hrev
      rcases List.append_eq_append_iff.mp this with ⟨c, h3, h4⟩ | ⟨c, h3, h4⟩
      · cases c with
        | nil =>
          obtain ⟨rfl, _⟩ := List.cons.inj h4
          exact Nat.le_refl _
        | cons y c =>
          obtain ⟨rfl, h5⟩ := List.cons.inj h4
          exact Nat.le_of_lt (hord (a := pre) (b := c) (c := r1.reverse) (by rw [e1, h5]; rfl))
      · cases c with
        | nil =>
          obtain ⟨rfl, _⟩ := List.cons.inj h4
          exact Nat.le_refl _
        | cons y c =>
          -- the check would be strictly before the push
          obtain ⟨rfl, h5⟩ := List.cons.inj h4
          exfalso
          have a1 := e4 r2.reverse j c h3
          have hnr : i.op ≠ .ret := by
            intro hr
            obtain ⟨k1, k2⟩ := hl.ret pre i post e1 hr
            subst k1
            have : deadCount [i] = 0 := by
              have : deadRegs [i] = [] := by
                rw [deadRegs, List.filter_eq_nil_iff]
                intro r _
                simp [k2 r, deadRegs]
              simp [deadCount, this]
            rw [this] at e3
            exact absurd e3 (by simp)
          have hr1 : r1 = post.reverse ++ i :: c.reverse := by
            have := congrArg List.reverse h5
            simpa using this
          have a2 := x4 post.reverse i c.reverse hr1 hnr
          have e : r1.reverse = c ++ i :: post := h5
          simp only [List.reverse_reverse, List.append_nil, e] at a2
          omega
    · cases hx
  · cases he

/-- A block of a function without a frame: both snippets are moved, to the same place. -/
def lonelyBlock : List BInsn :=
  [{ addr := 64, reads := [.gpr .rdi 8], writes := [.gpr .rax 8] },
   { addr := 68, reads := [.gpr .rdi 8], writes := [.gpr .rcx 8] },
   { addr := 72, op := .ret, reads := [.gpr .rsp 8], writes := [.gpr .rsp 8, .other] }]

theorem lonelyBlock_shape : BlockShape lonelyBlock where
  sorted := by decide
  ret a i b h hr := by
    have hi : ∀ (l : List BInsn), (∀ x ∈ l, x.op ≠ .ret) → ∀ (a : List BInsn) (i k : BInsn)
        (b : List BInsn), l ++ [k] = a ++ i :: b → i.op = .ret → b = [] ∧ i = k := by
      intro l
      induction l with
      | nil =>
        intro _ a i k b h _
        cases a with
        | nil => cases h; exact ⟨rfl, rfl⟩
        | cons x a => have := (List.cons.inj h).2; simp at this
      | cons x l ih =>
        intro hx a i k b h hr
        cases a with
        | nil => cases h; exact absurd hr (hx _ (by simp))
        | cons y a =>
          exact ih (fun z hz => hx z (List.mem_cons_of_mem _ hz)) a i k b (List.cons.inj h).2 hr
    obtain ⟨h1, h2⟩ := hi [{ addr := 64, reads := [.gpr .rdi 8], writes := [.gpr .rax 8] },
      { addr := 68, reads := [.gpr .rdi 8], writes := [.gpr .rcx 8] }] (by decide) a i _ b h hr
    refine ⟨h1, ?_⟩
    subst h2
    intro r
    cases r <;> decide

example : entryData lonelyBlock = some ⟨64, 0, 2, "x86_64::rax", "x86_64::rcx"⟩ ∧
    exitData lonelyBlock = some ⟨64, 0, 2, "x86_64::rax", "x86_64::rcx"⟩ := by decide

end Verif
