import Verif.ImageTeam
import Verif.Props.Image
import Verif.Props.RefineTeam

/-! # C118: instrumented programs with several threads in memory do what the originals do -/

namespace Verif

variable {κ L : Type} {P : Guest κ L} {I : Image κ}

/-! ## One instruction -/

/-- From one place in a snippet to another over labels only. -/
inductive Skips : Code → Code → Prop
  | refl {k : Code} : Skips k k
  | bind {l : Label} {k k' : Code} : Skips k k' → Skips (.bind l :: k) k'

theorem Placed.skip {text : W → Byte} {L : Label → Nat} {Q : Nat → Code → Prop} {a : W} {len pos : Nat} {k : Code}
    (h : Placed text L Q a len pos k) : (pos = len ∧ Skips k []) ∨
      (pos < len ∧ ∃ i k', (∀ l, i ≠ .bind l) ∧ Placed text L Q a len pos (i :: k') ∧ i :: k' <:+ k ∧ Skips k (i :: k')) := by
  have keep : ∀ {pos' i k'}, pos' < len → (∀ l, i ≠ .bind l) → Placed text L Q a len pos' (i :: k') →
      (pos' = len ∧ Skips (i :: k') []) ∨
      (pos' < len ∧ ∃ i' k'', (∀ l, i' ≠ .bind l) ∧ Placed text L Q a len pos' (i' :: k'') ∧ i' :: k'' <:+ i :: k' ∧
        Skips (i :: k') (i' :: k'')) :=
    fun h1 h2 h3 => .inr ⟨h1, _, _, h2, h3, List.suffix_rfl, .refl⟩
  induction h with
  | nil => exact .inl ⟨rfl, .refl⟩
  | plain h1 h2 h3 h4 _ =>
    have := h4.le
    exact keep (by omega) (by rintro l rfl; cases h3) (.plain h1 h2 h3 h4)
  | je h1 h2 h3 h4 _ => have := h4.le; exact keep (by omega) nofun (.je h1 h2 h3 h4)
  | jne h1 h2 h3 h4 _ => have := h4.le; exact keep (by omega) nofun (.jne h1 h2 h3 h4)
  | jmp h1 h2 h3 h4 _ => have := h4.le; exact keep (by omega) nofun (.jmp h1 h2 h3 h4)
  | illegal h1 h2 h3 _ => have := h3.le; exact keep (by omega) nofun (.illegal h1 h2 h3)
  | bind h1 h2 ih =>
    rcases ih with ⟨k1, k2⟩ | ⟨k1, i, k', k2, k3, k4, k5⟩
    · exact .inl ⟨k1, .bind k2⟩
    · exact .inr ⟨k1, i, k', k2, k3, k4.trans (List.suffix_cons ..), .bind k5⟩

/-- The processor is at `x` in the bytes of snippet `w`, and `r` is what is left of it. -/
def Seated (I : Image κ) (P : Guest κ L) (k : κ) (x : W) (w r : Code) (k' : κ) : Prop :=
  P.site k = some (w, k') ∧ r <:+ w ∧ JumpsBound w ∧ ∃ (a : W) (n : Nat) (final : Label → Option Nat) (pos : Nat),
    I.site k = some (a, n, k') ∧ n < 2 ^ 64 ∧ x = a + BitVec.ofNat 64 pos ∧
    Placed I.text (fun l => (final l).getD 0) (BehindByte I.text final a n) a n 0 w ∧
    Placed I.text (fun l => (final l).getD 0) (BehindByte I.text final a n) a n pos r

theorem Seated.begin (hI : I.Of P) {k k' : κ} {c : Code} (h : P.site k = some (c, k')) :
    ∃ a n, I.site k = some (a, n, k') ∧ Seated I P k a c c k' := by
  obtain ⟨a, bs, hb, hs, hl, hi⟩ := hI.some k c k' h
  obtain ⟨final, _, _, hp⟩ := assemble_placed hb hs
  exact ⟨a, bs.length, hi, h, List.suffix_rfl, assemble_closed hb, a, _, final, 0, hi, hl, by simp, hp, hp⟩

theorem Seated.fin {k k' : κ} {x : W} {w : Code} (h : Seated I P k x w [] k') :
    ∃ a n, I.site k = some (a, n, k') ∧ x = a + BitVec.ofNat 64 n := by
  obtain ⟨_, _, _, a, n, final, pos, hi, _, rfl, _, hp⟩ := h
  cases hp
  exact ⟨a, n, hi, rfl⟩

/-- An instruction of the list is one in memory, or a label. -/
theorem Seated.go {k k' : κ} {x : W} {w r r' : Code} {s s' : State} (h : Seated I P k x w r k')
    (hg : Go w r s r' s') : (s' = s ∧ (∃ l, r = .bind l :: r') ∧ Seated I P k x w r' k') ∨
      ∃ a n x', I.site k = some (a, n, k') ∧ Inside a n x ∧ executeAt I.avx I.text x s = .next x' s' ∧
        Seated I P k x' w r' k' := by
  obtain ⟨hs, hr, hj, a, n, final, pos, hi, hn, rfl, hw, hp⟩ := h
  have seat : ∀ {p' r'}, r' <:+ w → Placed I.text (fun l => (final l).getD 0) (BehindByte I.text final a n) a n p' r' →
      Seated I P k (a + BitVec.ofNat 64 p') w r' k' :=
    fun h1 h2 => ⟨hs, h1, hj, a, n, final, _, hi, hn, rfl, hw, h2⟩
  have tail : ∀ {i r1}, i :: r1 <:+ w → r1 <:+ w := fun h => (List.suffix_cons ..).trans h
  cases hp with
  | nil => cases hg
  | @plain _ i _ m h1 h2 h3 h4 =>
    obtain ⟨s1, h5⟩ := Instr.straight_next h3 s
    have hle := h4.le
    cases hg with
    | next e =>
      rw [h5] at e; cases e
      exact .inr ⟨a, n, _, hi, ⟨pos, by omega, rfl⟩, by simp only [executeAt, h1, h5, add_ofNat], seat (tail hr) h4⟩
    | goto e _ => rw [h5] at e; cases e
  | @je _ l _ m rel h1 h2 h3 h4 =>
    have hle := h4.le
    by_cases hz : s.zf = true
    · cases hg with
      | next e => simp [exec, hz] at e
      | goto e ht =>
        simp only [exec, hz, if_true, Step.goto.injEq] at e
        obtain ⟨rfl, rfl⟩ := e
        exact .inr ⟨a, n, _, hi, ⟨pos, by omega, rfl⟩, by simp only [executeAt, h1, hz, if_true, jump_addr h3],
          seat (target_suffix ht) (hw.target ht)⟩
    · cases hg with
      | next e =>
        simp only [exec, hz, if_false, Bool.false_eq_true, Step.next.injEq] at e
        subst e
        exact .inr ⟨a, n, _, hi, ⟨pos, by omega, rfl⟩, by simp [executeAt, h1, hz, add_ofNat], seat (tail hr) h4⟩
      | goto e _ => simp [exec, hz] at e
  | @jne _ l _ m rel h1 h2 h3 h4 =>
    have hle := h4.le
    by_cases hz : s.zf = true
    · cases hg with
      | next e =>
        simp only [exec, hz, if_true, Step.next.injEq] at e
        subst e
        exact .inr ⟨a, n, _, hi, ⟨pos, by omega, rfl⟩, by simp [executeAt, h1, hz, add_ofNat], seat (tail hr) h4⟩
      | goto e _ => simp [exec, hz] at e
    · cases hg with
      | next e => simp [exec, hz] at e
      | goto e ht =>
        simp only [exec, hz, if_false, Bool.false_eq_true, Step.goto.injEq] at e
        obtain ⟨rfl, rfl⟩ := e
        exact .inr ⟨a, n, _, hi, ⟨pos, by omega, rfl⟩,
          by simp only [executeAt, h1, hz, if_false, Bool.false_eq_true, jump_addr h3],
          seat (target_suffix ht) (hw.target ht)⟩
  | @jmp _ l _ m rel h1 h2 h3 h4 =>
    have hle := h4.le
    cases hg with
    | next e => cases e
    | goto e ht =>
      simp only [exec, Step.goto.injEq] at e
      obtain ⟨rfl, rfl⟩ := e
      exact .inr ⟨a, n, _, hi, ⟨pos, by omega, rfl⟩, by simp only [executeAt, h1, jump_addr h3],
        seat (target_suffix ht) (hw.target ht)⟩
  | bind h1 h2 =>
    cases hg with
    | next e => cases e; exact .inl ⟨rfl, ⟨_, rfl⟩, seat (tail hr) h2⟩
    | goto e _ => cases e
  | illegal h1 h2 h3 =>
    cases hg with
    | next e => cases e
    | goto e _ => cases e

theorem Seated.trap {k k' : κ} {x : W} {w r : Code} {ins : Instr} {s s' : State} (hu : I.Undefined P)
    (h : Seated I P k x w (ins :: r) k') (hg : exec ins s = .trap s') :
    ∃ a n, I.site k = some (a, n, k') ∧ Inside a n x ∧ executeAt I.avx I.text x s = .sigill s := by
  obtain ⟨hs, hr, hj, a, n, final, pos, hi, hn, rfl, hw, hp⟩ := h
  cases hp with
  | plain h1 h2 h3 h4 =>
    obtain ⟨s1, h5⟩ := Instr.straight_next h3 s
    rw [h5] at hg; cases hg
  | je => simp only [exec] at hg; split at hg <;> cases hg
  | jne => simp only [exec] at hg; split at hg <;> cases hg
  | jmp => cases hg
  | bind => cases hg
  | illegal h1 h2 h3 =>
    have := h3.le
    refine ⟨a, n, hi, ⟨pos, by omega, rfl⟩, ?_⟩
    cases ha : I.avx with
    | false => simp [executeAt, h1]
    | true =>
      simp [executeAt, h1, evex_placed h2 hr (hu k w k' a n k' hs hi ha (hr.subset (List.mem_cons_self ..)))]

/-- At any place of the bytes, up to labels the list is at an instruction which does the same, or at `0x62`, or at
its end. -/
theorem Seated.back {k k' : κ} {x : W} {w r : Code} (h : Seated I P k x w r k') (s : State) :
    ∃ a n, I.site k = some (a, n, k') ∧ n < 2 ^ 64 ∧
      ((x = a + BitVec.ofNat 64 n ∧ Skips r []) ∨
       (Inside a n x ∧ ∃ i r1, (∀ l, i ≠ .bind l) ∧ Skips r (i :: r1) ∧ Seated I P k x w (i :: r1) k' ∧
         ((i = .illegal) ∨ ∃ x' s' r', Go w (i :: r1) s r' s' ∧ executeAt I.avx I.text x s = .next x' s' ∧
           Seated I P k x' w r' k'))) := by
  obtain ⟨hs, hr, hj, a, n, final, pos, hi, hn, rfl, hw, hp⟩ := h
  refine ⟨a, n, hi, hn, ?_⟩
  rcases hp.skip with ⟨rfl, h⟩ | ⟨hlt, i, r1, hb, hp1, hs1, hk⟩
  · exact .inl ⟨rfl, h⟩
  have hs2 := hs1.trans hr
  have hseat : Seated I P k (a + BitVec.ofNat 64 pos) w (i :: r1) k' :=
    ⟨hs, hs2, hj, a, n, final, pos, hi, hn, rfl, hw, hp1⟩
  refine .inr ⟨⟨pos, hlt, rfl⟩, i, r1, hb, hk, hseat, ?_⟩
  by_cases he : i = .illegal
  · exact .inl he
  refine .inr ?_
  have ij : ∀ l o, i.jump = some (l, o) → ∃ k, Verif.target l w = some k :=
    hj i (hs2.subset (List.mem_cons_self ..))
  have hgo : ∃ r' s', Go w (i :: r1) s r' s' := by
    cases hp1 with
    | plain h1 h2 h3 h4 =>
      obtain ⟨s1, h5⟩ := Instr.straight_next h3 s
      exact ⟨_, _, .next h5⟩
    | je =>
      obtain ⟨kt, ht⟩ := ij _ _ rfl
      by_cases hz : s.zf = true
      · exact ⟨_, s, .goto (by simp [exec, hz]) ht⟩
      · exact ⟨_, s, .next (by simp [exec, hz])⟩
    | jne =>
      obtain ⟨kt, ht⟩ := ij _ _ rfl
      by_cases hz : s.zf = true
      · exact ⟨_, s, .next (by simp [exec, hz])⟩
      · exact ⟨_, s, .goto (by simp [exec, hz]) ht⟩
    | jmp =>
      obtain ⟨kt, ht⟩ := ij _ _ rfl
      exact ⟨_, s, .goto rfl ht⟩
    | bind => exact absurd rfl (hb _)
    | illegal => exact absurd rfl he
  obtain ⟨r', s', hg⟩ := hgo
  rcases hseat.go hg with ⟨_, ⟨l, e⟩, _⟩ | ⟨a', n', x', _, _, hx, hseat'⟩
  · cases e; exact absurd rfl (hb _)
  · exact ⟨x', s', r', hg, hx, hseat'⟩

/-! ## Threads -/

variable {ι : Type} [DecidableEq ι] {N N' : Squad ι (Footing κ)} {A A' : Squad ι (Stand κ)} {M0 : Squad ι κ} {i : ι}

/-- Where a thread is in memory, and in the lists of instructions. -/
inductive FootRel (I : Image κ) (P : Guest κ L) : Footing κ → Stand κ → Prop
  | own (k : κ) : FootRel I P (.own k) (.own k)
  | inside {k k' : κ} {x : W} {w r : Code} : Seated I P k x w r k' → FootRel I P (.inside k x) (.busy w r k')

theorem FootRel.point {p : Footing κ} {q : Stand κ} (h : FootRel I P p q) : p.point I = q.point := by
  cases h with
  | own => rfl
  | inside h =>
    obtain ⟨_, _, _, a, n, _, _, hi, _⟩ := h
    simp [Footing.point, hi, Stand.point]

/-- The same moment of the two executions. -/
structure TeamRel (I : Image κ) (P : Guest κ L) (N : Squad ι (Footing κ)) (A : Squad ι (Stand κ)) : Prop where
  mem : N.mem = A.mem
  cpu : N.cpu = A.cpu
  foot : ∀ i, FootRel I P (N.pos i) (A.pos i)

omit [DecidableEq ι] in
theorem TeamRel.at_eq (h : TeamRel I P N A) (i : ι) : N.at_ i = A.at_ i := by
  simp only [Squad.at_, h.mem, h.cpu]

theorem TeamRel.put (h : TeamRel I P N A) {p : Footing κ} {q : Stand κ} (hp : FootRel I P p q) (s : State) :
    TeamRel I P (N.put i p s) (A.put i q s) where
  mem := rfl
  cpu := by simp only [Squad.put, h.cpu]
  foot j := by
    by_cases e : j = i
    · subst e; rw [put_pos, put_pos]; exact hp
    · rw [put_pos_ne _ e, put_pos_ne _ e]; exact h.foot j

theorem TeamRel.stay (h : TeamRel I P N A) {q : Stand κ} (hp : FootRel I P (N.pos i) q) :
    TeamRel I P N (A.put i q (A.at_ i)) := by
  have := h.put (i := i) hp (A.at_ i)
  rwa [← h.at_eq, put_self, h.at_eq] at this

omit [DecidableEq ι] in
theorem TeamRel.abreast (h : TeamRel I P N A) : Abreast I N A where
  mem := h.mem
  cpu := h.cpu
  point j := (h.foot j).point
  own j k := by
    have := h.foot j
    constructor
    · intro e; rw [e] at this; generalize A.pos j = q at this; cases this; rfl
    · intro e; rw [e] at this; generalize N.pos j = p at this; cases this; rfl

omit [DecidableEq ι] in
theorem doing_own {k : κ} (h : N.pos i = .own k) : N.doing i = .own k (N.at_ i) := by
  simp only [Squad.doing, h]

omit [DecidableEq ι] in
theorem doing_inside {k : κ} {x : W} (h : N.pos i = .inside k x) : N.doing i = .inside k x (N.at_ i) := by
  simp only [Squad.doing, h]

/-- A step in the lists is one in memory or none. -/
theorem TeamRel.forward (hI : I.Of P) (h : TeamRel I P N A) {ls : List L} (hs : SquadStep P A i ls (some A')) :
    (ls = [] ∧ TeamRel I P N A') ∨
    ∃ d N', Tick P I (N.doing i) ls d ∧ N.become i d = some N' ∧ TeamRel I P N' A' := by
  have hf := h.foot i
  generalize hc : some A' = c at hs
  cases hs with
  | @own k k' l s' hp hst =>
    cases hc
    rw [hp] at hf
    generalize hq : N.pos i = q at hf
    cases hf
    refine .inr ⟨.own k' s', _, ?_, rfl, h.put (.own k') s'⟩
    rw [doing_own hq, h.at_eq]
    exact .own hst
  | @enter k k' c hp hst =>
    cases hc
    rw [hp] at hf
    generalize hq : N.pos i = q at hf
    cases hf
    obtain ⟨a, n, hi, hseat⟩ := Seated.begin hI hst
    refine .inr ⟨.inside k a (A.at_ i), _, ?_, rfl, h.put (.inside hseat) (A.at_ i)⟩
    rw [doing_own hq, h.at_eq]
    exact .enter hi
  | @instr w r r' k' s' hp hg =>
    cases hc
    rw [hp] at hf
    generalize hq : N.pos i = q at hf
    cases hf with
    | @inside k _ x _ _ hseat =>
    rcases hseat.go hg with ⟨rfl, _, hs'⟩ | ⟨a, n, x', hi, hin, hx, hs'⟩
    · exact .inl ⟨rfl, h.stay (by rw [hq]; exact .inside hs')⟩
    · refine .inr ⟨.inside k x' s', _, ?_, rfl, h.put (.inside hs') s'⟩
      rw [doing_inside hq, h.at_eq]
      exact .next hi hin hx
  | @leave w k' hp =>
    cases hc
    rw [hp] at hf
    generalize hq : N.pos i = q at hf
    cases hf with
    | @inside k _ x _ _ hseat =>
    obtain ⟨a, n, hi, rfl⟩ := hseat.fin
    refine .inr ⟨.own k' (A.at_ i), _, ?_, rfl, h.put (.own k') (A.at_ i)⟩
    rw [doing_inside hq, h.at_eq]
    exact .leave hi
  | trap => cases hc

theorem TeamRel.forward_trap (hu : I.Undefined P) (h : TeamRel I P N A) {ls : List L} (hs : SquadStep P A i ls none) :
    ls = [] ∧ Tick P I (N.doing i) [] .killed := by
  have hf := h.foot i
  generalize hc : none = c at hs
  cases hs with
  | @trap w r ins k' s' hp hx =>
    rw [hp] at hf
    generalize hq : N.pos i = q at hf
    cases hf with
    | @inside k _ x _ _ hseat =>
    obtain ⟨a, n, hi, hin, hx⟩ := hseat.trap hu hx
    refine ⟨rfl, ?_⟩
    rw [doing_inside hq, h.at_eq]
    exact .die hi hin hx
  | _ => cases hc

theorem Skips.alone {r r' w : Code} {k' : κ} (h : Skips r r') :
    ∀ {A : Squad ι (Stand κ)}, A.pos i = .busy w r k' → Alone P i A (A.put i (.busy w r' k') (A.at_ i)) := by
  induction h with
  | refl =>
    intro A hp
    rw [← hp, put_self]
    exact .refl A
  | @bind l k k1 _ ih =>
    intro A hp
    have h1 : SquadStep P A i [] (some (A.put i (.busy w k k') (A.at_ i))) := .instr hp (.next rfl)
    have h2 := ih (put_pos A i (.busy w k k') (A.at_ i))
    rw [put_at] at h2
    have e : (A.put i (.busy w k k') (A.at_ i)).put i (.busy w k1 k') (A.at_ i) = A.put i (.busy w k1 k') (A.at_ i) := by
      simp only [Squad.put, Squad.mk.injEq, true_and]
      constructor <;> (funext j; split <;> simp_all)
    rw [e] at h2
    exact .step h1 h2

/-- A step in memory is one in the lists, after labels. -/
theorem TeamRel.backward (hI : I.Of P) (h : TeamRel I P N A) {ls : List L} {d : Doing κ} (hs : Tick P I (N.doing i) ls d) :
    ∃ A1, Alone P i A A1 ∧
      ((∃ A' N', SquadStep P A1 i ls (some A') ∧ N.become i d = some N' ∧ TeamRel I P N' A') ∨
       (SquadStep P A1 i ls none ∧ (I.Undefined P → N.become i d = none))) := by
  have hf := h.foot i
  cases hq : N.pos i with
  | own k =>
    rw [doing_own hq] at hs
    rw [hq] at hf
    generalize ha : A.pos i = q at hf
    cases hf
    refine ⟨A, .refl A, .inl ?_⟩
    rw [h.at_eq] at hs
    cases hs with
    | own hst => exact ⟨_, _, .own ha hst, rfl, h.put (.own _) _⟩
    | @enter _ k' _ a n hi =>
      cases hp : P.site k with
      | none => rw [hI.none k hp] at hi; cases hi
      | some y =>
        obtain ⟨a', n', hi', hseat⟩ := Seated.begin (k' := y.2) hI hp
        rw [hi] at hi'
        cases hi'
        exact ⟨_, _, .enter ha hp, rfl, h.put (.inside hseat) _⟩
  | inside k x =>
    rw [doing_inside hq] at hs
    rw [hq] at hf
    generalize ha : A.pos i = q at hf
    cases hf with
    | @inside _ k' _ w r hseat =>
    rw [h.at_eq] at hs
    obtain ⟨a, n, hi, hn, hb⟩ := hseat.back (A.at_ i)
    rcases hb with ⟨rfl, hsk⟩ | ⟨hin, ins, r1, _, hsk, hseat1, hb⟩
    · -- behind the bytes
      have hal := hsk.alone (P := P) ha
      generalize hA1 : A.put i (.busy w [] k') (A.at_ i) = A1 at hal
      have p1 : A1.pos i = .busy w [] k' := by rw [← hA1, put_pos]
      have e1 : A1.at_ i = A.at_ i := by rw [← hA1, put_at]
      have r1 : TeamRel I P N A1 := by
        rw [← hA1]
        refine h.stay ?_
        rw [hq]
        obtain ⟨hs0, _, hj, a1, n1, final, pos, hi1, hn1, e, hw, hp⟩ := hseat
        rw [hi] at hi1
        cases hi1
        have : n = pos := ofNat_inj hn (by have := hp.le; omega) e
        subst this
        exact .inside ⟨hs0, List.nil_suffix, hj, a, _, final, _, hi, hn, rfl, hw, .nil⟩
      refine ⟨A1, hal, .inl ?_⟩
      generalize hx : a + BitVec.ofNat 64 n = x at hs
      cases hs with
      | next e i' _ => rw [hi] at e; cases e; rw [← hx] at i'; exact absurd i' (not_inside_end hn)
      | die e i' _ => rw [hi] at e; cases e; rw [← hx] at i'; exact absurd i' (not_inside_end hn)
      | leave e =>
        rw [hi] at e
        cases e
        have := SquadStep.leave (P := P) p1
        rw [e1] at this
        exact ⟨_, _, this, rfl, r1.put (.own k') _⟩
    · have hal := hsk.alone (P := P) ha
      generalize hA1 : A.put i (.busy w (ins :: r1) k') (A.at_ i) = A1 at hal
      have p1 : A1.pos i = .busy w (ins :: r1) k' := by rw [← hA1, put_pos]
      have e1 : A1.at_ i = A.at_ i := by rw [← hA1, put_at]
      have hr1 : TeamRel I P N A1 := by
        rw [← hA1]
        refine h.stay ?_
        rw [hq]
        exact .inside hseat1
      refine ⟨A1, hal, ?_⟩
      rcases hb with rfl | ⟨x', s', r', hg, hx, hseat'⟩
      · refine .inr ?_
        have hls : ls = [] := by cases hs <;> rfl
        subst hls
        refine ⟨.trap p1 rfl, fun hu => ?_⟩
        obtain ⟨a1, n1, hi1, _, hx⟩ := hseat1.trap hu (ins := .illegal) (s := A.at_ i) rfl
        cases hs with
        | next _ _ e => rw [hx] at e; cases e
        | leave e => rw [hi] at e; cases e; exact absurd hin (not_inside_end hn)
        | die => rfl
      · refine .inl ?_
        cases hs with
        | next _ _ e =>
          rw [hx] at e
          cases e
          exact ⟨_, _, .instr p1 (by rw [e1]; exact hg), rfl, hr1.put (.inside hseat') _⟩
        | leave e => rw [hi] at e; cases e; exact absurd hin (not_inside_end hn)
        | die _ _ e => rw [hx] at e; cases e

/-! ## Executions -/

omit [DecidableEq ι] in
theorem TeamRel.start : TeamRel I P M0.load M0.arm := ⟨rfl, rfl, fun i => .own (M0.pos i)⟩

theorem Alone.lone (hI : I.Of P) (h : Alone P i A A') : TeamRel I P N A → ∃ N', Lone P I i N N' ∧ TeamRel I P N' A' := by
  induction h generalizing N with
  | refl => exact fun h => ⟨N, .refl N, h⟩
  | step hs _ ih =>
    intro h
    rcases h.forward hI hs with ⟨_, h1⟩ | ⟨d, N1, h1, h2, h3⟩
    · exact ih h1
    · obtain ⟨N', h4, h5⟩ := ih h3
      exact ⟨N', .step h1 h2 h4, h5⟩

theorem team_forward (hI : I.Of P) {tr : List (ι × L)} {c : Option (Squad ι (Stand κ))} (h : ArmedSquad P M0 tr c) :
    ∀ A, c = some A → ∃ N, TeamTicks P I M0 tr (some N) ∧ TeamRel I P N A := by
  induction h with
  | start => intro A e; cases e; exact ⟨_, .start, .start⟩
  | @step tr A i ls c _ hs ih =>
    intro A' e
    subst e
    obtain ⟨N, h1, h2⟩ := ih A rfl
    rcases h2.forward hI hs with ⟨rfl, h3⟩ | ⟨d, N1, h3, h4, h5⟩
    · exact ⟨N, by rw [List.map_nil, List.append_nil]; exact h1, h3⟩
    · exact ⟨N1, by rw [← h4]; exact h1.step h3, h5⟩

theorem team_backward (hI : I.Of P) (hd : I.Undefined P ∨ ∀ tr, ¬ ArmedSquad P M0 tr none) {tr : List (ι × L)}
    {c : Option (Squad ι (Footing κ))} (h : TeamTicks P I M0 tr c) :
    (∀ N, c = some N → ∃ A, ArmedSquad P M0 tr (some A) ∧ TeamRel I P N A) ∧ (c = none → ArmedSquad P M0 tr none) := by
  induction h with
  | start => exact ⟨fun N e => by cases e; exact ⟨_, .start, .start⟩, nofun⟩
  | @step tr N i ls d _ hs ih =>
    obtain ⟨A, h1, h2⟩ := ih.1 N rfl
    obtain ⟨A1, h3, h4⟩ := h2.backward hI hs
    have h5 := h3.run h1
    rcases h4 with ⟨A', N', h6, h7, h8⟩ | ⟨h6, h7⟩
    · rw [h7]
      exact ⟨fun N e => by cases e; exact ⟨A', h5.step h6, h8⟩, nofun⟩
    · rcases hd with hu | hn
      · rw [h7 hu]
        exact ⟨nofun, fun _ => h5.step h6⟩
      · exact absurd (h5.step h6) (hn _)

/-- **C118, same executions.**  If `0x62` is undefined wherever it stands (C93), the executions of the threads in
memory are those in which snippets are lists of instructions, whatever the threads do. -/
theorem C118_same_runs (hI : I.Of P) (hu : I.Undefined P) {tr : List (ι × L)} :
    (∀ A, ArmedSquad P M0 tr (some A) → ∃ N, TeamTicks P I M0 tr (some N) ∧ Abreast I N A) ∧
    (∀ N, TeamTicks P I M0 tr (some N) → ∃ A, ArmedSquad P M0 tr (some A) ∧ Abreast I N A) ∧
    (TeamTicks P I M0 tr none ↔ ArmedSquad P M0 tr none) := by
  refine ⟨fun A h => ?_, fun N h => ?_, fun h => (team_backward hI (.inl hu) h).2 rfl, fun h => ?_⟩
  · obtain ⟨N, h1, h2⟩ := team_forward hI h A rfl
    exact ⟨N, h1, h2.abreast⟩
  · obtain ⟨A, h1, h2⟩ := (team_backward hI (.inl hu) h).1 N rfl
    exact ⟨A, h1, h2.abreast⟩
  · generalize hc : none = c at h
    cases h with
    | start => cases hc
    | step h1 hs =>
      subst hc
      obtain ⟨N, h2, h3⟩ := team_forward hI h1 _ rfl
      obtain ⟨rfl, h4⟩ := h3.forward_trap hu hs
      exact h2.step h4

/-- **C118.**  If the instrumented program with its threads does what the original does, when snippets are taken for
the lists of instructions which asmjit was asked for (C108, C109), then so does the program in memory, where any
number of threads execute the same bytes and take turns after every instruction. -/
theorem C118_same_behaviour {D : ι → Blind κ} (hI : I.Of P) (hR : P.TeamRefines D M0) : I.TeamRefines P D M0 := by
  have hd : I.Undefined P ∨ ∀ tr, ¬ ArmedSquad P M0 tr none := .inr hR.alive
  refine ⟨fun tr M h => ?_, fun tr N h => ?_, fun tr h => hR.alive tr ((team_backward hI hd h).2 rfl), ?_, fun tr N i h => ?_⟩
  · obtain ⟨A, h1, h2⟩ := hR.forth tr M h
    obtain ⟨N, h3, h4⟩ := team_forward hI h1 A rfl
    refine ⟨N, h3, fun i => ⟨(h4.abreast.own i _).2 (h2 i).1, ?_⟩⟩
    rw [h4.at_eq]
    exact (h2 i).2
  · obtain ⟨A, h1, h2⟩ := (team_backward hI hd h).1 N rfl
    obtain ⟨M, h3, h4⟩ := hR.back tr A h1
    refine ⟨M, h3, fun i => ⟨(h2.foot i).point.trans (h4 i).1, fun k e => ?_⟩⟩
    rw [h2.at_eq]
    exact (h4 i).2 k ((h2.abreast.own i k).1 e)
  · intro tr M N i k h1 hp hm hs
    have hl := hR.live tr M ⟨N.mem, fun _ => .own k, N.cpu⟩ i k h1 rfl hm hs
    refine ⟨fun l k' => ?_, ?_⟩
    · rw [doing_own hp]
      constructor
      · rintro ⟨s', hst⟩
        obtain ⟨N', h2, h3⟩ := (hl [l] k').1 ⟨s', .own hst⟩
        cases h2 with
        | own e hst' =>
          cases e
          rw [put_pos] at h3
          cases h3
          exact ⟨_, .own hst'⟩
      · rintro ⟨t', ht⟩
        cases ht with
        | own hst' =>
          obtain ⟨s', hb⟩ := (hl [l] k').2 ⟨_, .own rfl hst', by rw [put_pos]; rfl⟩
          cases hb with
          | own hst => exact ⟨s', hst⟩
    · rw [doing_own hp]
      constructor
      · rintro ⟨⟨c, k'⟩, e⟩
        obtain ⟨a, bs, _, _, _, hi⟩ := hI.some k c k' e
        exact ⟨a, .enter hi⟩
      · rintro ⟨x, h4⟩
        cases h4 with
        | enter e =>
          cases hp : P.site k with
          | none => rw [hI.none k hp] at e; cases e
          | some y => exact ⟨y, rfl⟩
  · obtain ⟨A, h1, h2⟩ := (team_backward hI hd h).1 N rfl
    obtain ⟨A', h3, h4⟩ := hR.ends tr A i h1
    obtain ⟨N', h5, h6⟩ := h3.lone hI h2
    exact ⟨N', h5, by rw [(h2.foot i).point]; exact (h6.abreast.own i _).2 h4⟩

end Verif
