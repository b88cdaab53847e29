import Verif.Silence
import Verif.Props.Ending
import Verif.Props.Forever

/-! # C131: programs in memory are not silent forever -/

namespace Verif

variable {ι κ L : Type} [DecidableEq ι] {P : CoreGuest κ L} {D : ι → Blind κ} {g : ι → W} {A : ι → W → Prop}
  {M0 : Cores ι κ} {I : Image κ} {N : Nat → Cores ι (Footing κ)} {who : Nat → ι} {i : ι} {r : κ → Nat}

theorem first_of {p : Nat → Prop} : ∀ n, p n → ∃ m, p m ∧ ∀ j, j < m → ¬ p j := by
  intro n
  induction n using Nat.strongRecOn with
  | _ n ih =>
    intro h
    by_cases e : ∃ j, j < n ∧ p j
    · obtain ⟨j, h1, h2⟩ := e
      exact ih j h1 h2
    · exact ⟨n, h, fun j h1 h2 => e ⟨j, h1, h2⟩⟩

/-- Step `n` empties a byte of the thread's buffer, or is another thread's. -/
def Aside (N : Nat → Cores ι (Footing κ)) (who : Nat → ι) (i : ι) (n : Nat) : Prop :=
  who n ≠ i ∨ ∃ w ws, (N n).buf i = w :: ws ∧ N (n + 1) = (N n).drain i w ws

theorem move_other {M : Cores ι (Footing κ)} {c : Option (Cores ι (Footing κ))} {j : ι} {ls : List L} (h : ByteMove P I M j ls c)
    (e : j ≠ i) : ∀ M', c = some M' → M'.pos i = M.pos i ∧ M'.buf i = M.buf i := by
  have e := Ne.symm e
  intro M' hc
  cases h <;> cases hc <;> simp [Cores.put, Cores.sync, Cores.drain, e]

theorem Aside.pos (hq : ∀ n, ByteMove P I (N n) (who n) [] (some (N (n + 1)))) {n : Nat} (h : Aside N who i n) :
    (N (n + 1)).pos i = (N n).pos i := by
  rcases h with h | ⟨w, ws, _, h⟩
  · exact (move_other (hq n) h _ rfl).1
  · rw [h]; rfl

theorem Aside.pos_until (hq : ∀ n, ByteMove P I (N n) (who n) [] (some (N (n + 1)))) :
    ∀ {t : Nat}, (∀ n, n < t → Aside N who i n) → (N t).pos i = (N 0).pos i
  | 0, _ => rfl
  | t + 1, h => ((h t (by omega)).pos hq).trans (Aside.pos_until hq fun n hn => h n (by omega))

theorem Aside.turns (hq : ∀ n, ByteMove P I (N n) (who n) [] (some (N (n + 1)))) {m : Nat} {N' : Cores ι (Footing κ)} :
    ∀ {t : Nat}, (∀ n, n < t → Aside N who i n) → ByteTurns P I i (N t) m N' → ByteTurns P I i (N 0) m N'
  | 0, _, h => h
  | t + 1, h, h' => by
    refine Aside.turns hq (t := t) (fun n hn => h n (by omega)) ?_
    rcases h t (by omega) with e | ⟨w, ws, e, e'⟩
    · exact .other e (hq t) h'
    · rw [e'] at h'
      exact .drain e h'

/-- A thread which only empties its buffer comes to rest. -/
theorem rest_drains (b : Nat) : ∀ {N : Nat → Cores ι (Footing κ)} {who : Nat → ι},
    (∀ n, ByteMove P I (N n) (who n) [] (some (N (n + 1)))) → (∀ n, Aside N who i n) → ((N 0).buf i).length = b →
    ∃ n0, ∀ n, n0 ≤ n → who n ≠ i := by
  induction b with
  | zero =>
    intro N who hq ha hb
    refine ⟨0, fun n _ => ?_⟩
    have : (N n).buf i = [] := by
      induction n with
      | zero => exact List.eq_nil_of_length_eq_zero hb
      | succ n ih =>
        have ih := ih (by omega)
        rcases ha n with h | ⟨w, ws, h, _⟩
        · rw [(move_other (hq n) h _ rfl).2, ih]
        · rw [ih] at h; cases h
    rcases ha n with h | ⟨w, ws, h, _⟩
    · exact h
    · rw [this] at h; cases h
  | succ b ih =>
    intro N who hq ha hb
    by_cases e : ∃ n, who n = i
    · obtain ⟨n, e⟩ := e
      obtain ⟨t, e, hlt⟩ := first_of (p := fun n => who n = i) n e
      have hbuf : ∀ j, j ≤ t → (N j).buf i = (N 0).buf i := by
        intro j
        induction j with
        | zero => exact fun _ => rfl
        | succ j ihj =>
          intro hj
          rw [(move_other (hq j) (hlt j (by omega)) _ rfl).2, ihj (by omega)]
      obtain ⟨n0, h⟩ := ih (N := fun n => N (n + (t + 1))) (who := fun n => who (n + (t + 1)))
        (fun n => by have := hq (n + (t + 1)); rwa [show n + (t + 1) + 1 = n + 1 + (t + 1) by omega] at this)
        (fun n => by have := ha (n + (t + 1)); unfold Aside at this ⊢; rwa [show n + (t + 1) + 1 = n + 1 + (t + 1) by omega] at this)
        (by
          rcases ha t with h | ⟨w, ws, h, h'⟩
          · exact (h e).elim
          · simp only [Nat.zero_add, h', Cores.drain, if_true]
            rw [hbuf t (Nat.le_refl t)] at h
            rw [h, List.length_cons] at hb
            omega)
      refine ⟨n0 + (t + 1), fun n hn => ?_⟩
      have := h (n - (t + 1)) (by omega)
      rwa [show n - (t + 1) + (t + 1) = n by omega] at this
    · exact ⟨0, fun n _ h => e ⟨n, h⟩⟩

omit [DecidableEq ι] in
omit [DecidableEq ι] in
omit [DecidableEq ι] in
/-- If the thread comes to rest later on, it does. -/
theorem rest_later {t : Nat} (h : ∃ n0, ∀ n, n0 ≤ n → who (n + t) ≠ i) : ∃ n0, ∀ n, n0 ≤ n → who n ≠ i := by
  obtain ⟨n0, h⟩ := h
  refine ⟨n0 + t, fun n hn => ?_⟩
  have := h (n - t) (by omega)
  rwa [show n - t + t = n by omega] at this

theorem quiet_shift (hq : ∀ n, ByteMove P I (N n) (who n) [] (some (N (n + 1)))) (t n : Nat) :
    ByteMove P I (N (n + t)) (who (n + t)) [] (some (N (n + 1 + t))) := by
  have := hq (n + t)
  rwa [show n + t + 1 = n + 1 + t by omega] at this

theorem quiet_reached {tr : List (ι × L)} (h0 : ByteCores P I M0 tr (some (N 0)))
    (hq : ∀ n, ByteMove P I (N n) (who n) [] (some (N (n + 1)))) (t : Nat) : ByteCores P I M0 tr (some (N t)) := by
  induction t with
  | zero => exact h0
  | succ t ih => have := ih.step (hq t); rwa [List.map_nil, List.append_nil] at this

/-- A thread in a snippet comes to rest if threads do which have come to the point behind it. -/
theorem rest_inside {k : κ} (hlater : ∀ {N : Nat → Cores ι (Footing κ)} {who : Nat → ι} {a : W} {n : Nat} {k' : κ} {tr : List (ι × L)},
      I.site k = some (a, n, k') → ByteCores P I M0 tr (some (N 0)) → (∀ n, ByteMove P I (N n) (who n) [] (some (N (n + 1)))) →
      (N 0).pos i = .own k' → ∃ n0, ∀ n, n0 ≤ n → who n ≠ i) (b : Nat) :
    ∀ {N : Nat → Cores ι (Footing κ)} {who : Nat → ι} {x : W} {tr : List (ι × L)}, ByteCores P I M0 tr (some (N 0)) →
    (∀ n, ByteMove P I (N n) (who n) [] (some (N (n + 1)))) → (N 0).pos i = .inside k x →
    (∀ m N', ByteTurns P I i (N 0) m N' → m ≤ b) → ∃ n0, ∀ n, n0 ≤ n → who n ≠ i := by
  induction b with
  | zero =>
    intro N who x tr h0 hq hp hb
    by_cases e : ∃ n, ¬ Aside N who i n
    · obtain ⟨n, e⟩ := e
      obtain ⟨t, e, hlt⟩ := first_of (p := fun n => ¬ Aside N who i n) n e
      have hlt : ∀ j, j < t → Aside N who i j := fun j hj => Classical.byContradiction (hlt j hj)
      have hpt := (Aside.pos_until hq hlt).trans hp
      have hw : who t = i := Classical.byContradiction fun h => e (.inl h)
      have hm := hq t
      rw [hw] at hm
      generalize hc : some (N (t + 1)) = c at hm
      generalize hl : ([] : List L) = ls at hm
      cases hm with
      | own | locked => cases hl
      | enter h _ => rw [hpt] at h; cases h
      | next h h1 h2 h3 h4 h5 =>
        exact absurd (hb 1 _ (Aside.turns hq hlt (.next (.next h h1 h2 h3 h4 h5) (.refl _)))) (by omega)
      | leave h h1 =>
        rw [hpt] at h
        cases h
        refine rest_later (t := t + 1) (hlater (N := fun n => N (n + (t + 1))) h1 (quiet_reached h0 hq _) (quiet_shift hq _) ?_)
        injection hc with hc
        simp only [Nat.zero_add, hc, Cores.put, if_true]
      | die => cases hc
      | drain h => injection hc with hc; exact (e (.inr ⟨_, _, h, hc⟩)).elim
    · exact rest_drains _ hq (fun n => Classical.byContradiction fun h => e ⟨n, h⟩) rfl
  | succ b ih =>
    intro N who x tr h0 hq hp hb
    by_cases e : ∃ n, ¬ Aside N who i n
    · obtain ⟨n, e⟩ := e
      obtain ⟨t, e, hlt⟩ := first_of (p := fun n => ¬ Aside N who i n) n e
      have hlt : ∀ j, j < t → Aside N who i j := fun j hj => Classical.byContradiction (hlt j hj)
      have hpt := (Aside.pos_until hq hlt).trans hp
      have hw : who t = i := Classical.byContradiction fun h => e (.inl h)
      have hm := hq t
      rw [hw] at hm
      generalize hc : some (N (t + 1)) = c at hm
      generalize hl : ([] : List L) = ls at hm
      cases hm with
      | own | locked => cases hl
      | enter h _ => rw [hpt] at h; cases h
      | next h h1 h2 h3 h4 h5 =>
        injection hc with hc
        have hx := h
        rw [hpt] at hx
        cases hx
        refine rest_later (t := t + 1) (ih (N := fun n => N (n + (t + 1))) (quiet_reached h0 hq _) (quiet_shift hq _)
          (by simp only [Nat.zero_add, hc, Cores.put, if_true]; rfl) fun m N' ht => ?_)
        rw [Nat.zero_add, hc] at ht
        have := hb (m + 1) _ (Aside.turns hq hlt (.next (.next h h1 h2 h3 h4 h5) ht))
        omega
      | leave h h1 =>
        rw [hpt] at h
        cases h
        refine rest_later (t := t + 1) (hlater (N := fun n => N (n + (t + 1))) h1 (quiet_reached h0 hq _) (quiet_shift hq _) ?_)
        injection hc with hc
        simp only [Nat.zero_add, hc, Cores.put, if_true]
      | die => cases hc
      | drain h => injection hc with hc; exact (e (.inr ⟨_, _, h, hc⟩)).elim
    · exact rest_drains _ hq (fun n => Classical.byContradiction fun h => e ⟨n, h⟩) rfl

theorem site_of (hI : I.Of P.sites) {k k' : κ} {a : W} {n : Nat} (h : I.site k = some (a, n, k')) :
    ∃ c, P.site k = some (c, k') := by
  cases e : P.site k with
  | none => have h1 := hI.none k e; rw [h] at h1; cases h1
  | some p =>
    obtain ⟨c, k1⟩ := p
    obtain ⟨_, _, _, _, _, h1⟩ := hI.some k c k1 e
    rw [h] at h1
    cases h1
    exact ⟨c, rfl⟩

/-- A thread at a point of the program comes to rest. -/
theorem rest_own (hI : I.Of P.sites) (hE : I.Ends P M0) (hr : P.Chains r) (b : Nat) :
    ∀ {N : Nat → Cores ι (Footing κ)} {who : Nat → ι} {k : κ} {tr : List (ι × L)}, ByteCores P I M0 tr (some (N 0)) →
    (∀ n, ByteMove P I (N n) (who n) [] (some (N (n + 1)))) → (N 0).pos i = .own k → r k ≤ b → ∃ n0, ∀ n, n0 ≤ n → who n ≠ i := by
  induction b using Nat.strongRecOn with
  | _ b ih =>
    intro N who k tr h0 hq hp hb
    by_cases e : ∃ n, ¬ Aside N who i n
    · obtain ⟨n, e⟩ := e
      obtain ⟨t, e, hlt⟩ := first_of (p := fun n => ¬ Aside N who i n) n e
      have hlt : ∀ j, j < t → Aside N who i j := fun j hj => Classical.byContradiction (hlt j hj)
      have hpt := (Aside.pos_until hq hlt).trans hp
      have hw : who t = i := Classical.byContradiction fun h => e (.inl h)
      have hm := hq t
      rw [hw] at hm
      generalize hc : some (N (t + 1)) = c at hm
      generalize hl : ([] : List L) = ls at hm
      cases hm with
      | own | locked => cases hl
      | enter h h1 =>
        injection hc with hc
        rw [hpt] at h
        cases h
        have hre := quiet_reached h0 hq (t + 1)
        obtain ⟨m, hm⟩ := hE _ _ i hre
        obtain ⟨_, hs⟩ := site_of hI h1
        have hlt := hr _ _ _ hs
        refine rest_later (t := t + 1) (rest_inside (N := fun n => N (n + (t + 1))) (k := k) (fun h2 h3 h4 h5 => ?_) m
          (by rw [Nat.zero_add]; exact hre) (quiet_shift hq _) (by simp only [Nat.zero_add, hc, Cores.put, if_true]; rfl) fun m' N' ht => ?_)
        · rw [h1] at h2
          cases h2
          exact ih _ (by omega) h3 h4 h5 (Nat.le_refl _)
        · rw [Nat.zero_add] at ht
          exact (hm _ _ ht).1
      | next h | leave h => rw [hpt] at h; cases h
      | die => cases hc
      | drain h => injection hc with hc; exact (e (.inr ⟨_, _, h, hc⟩)).elim
    · exact rest_drains _ hq (fun n => Classical.byContradiction fun h => e ⟨n, h⟩) rfl

/-- **C131, each thread.** If from step `n` on the outside world sees nothing, each thread makes only finitely many steps. -/
theorem C131_rests (hI : I.Of P.sites) (hE : I.Ends P M0) (hr : P.Chains r) {act : Nat → List L}
    (h : I.Endless P M0 N who act) {n : Nat} (hn : ∀ m, n ≤ m → act m = []) (i : ι) : ∃ n0, ∀ m, n0 ≤ m → who m ≠ i := by
  have hreach : ∀ t, ∃ tr, ByteCores P I M0 tr (some (N t)) := by
    intro t
    induction t with
    | zero => rw [h.start]; exact ⟨_, .start⟩
    | succ t ih => obtain ⟨tr, ih⟩ := ih; exact ⟨_, ih.step (h.step t)⟩
  obtain ⟨tr, h0⟩ := hreach n
  have hq : ∀ m, ByteMove P I (N (m + n)) (who (m + n)) [] (some (N (m + 1 + n))) := fun m => by
    have := h.step (m + n)
    rwa [hn _ (by omega), show m + n + 1 = m + 1 + n by omega] at this
  apply rest_later (t := n)
  have h0' : ByteCores P I M0 tr (some ((fun m => N (m + n)) 0)) := by simpa using h0
  cases e : (N n).pos i with
  | own k => exact rest_own (N := fun m => N (m + n)) hI hE hr _ h0' hq (by simpa using e) (Nat.le_refl _)
  | inside k x =>
    obtain ⟨m, hm⟩ := hE _ _ i h0
    exact rest_inside (N := fun m => N (m + n)) (k := k)
      (fun h2 h3 h4 h5 => rest_own hI hE hr _ h3 h4 h5 (Nat.le_refl _)) m h0' hq (by simpa using e)
      fun m' N' ht => (hm _ _ (by simpa using ht)).1

/-- **C131.** If there are finitely many threads, the outside world sees something again and again in every endless execution of the
program in memory: snippets, and bytes on their way to memory, do not keep it busy forever. -/
theorem C131_heard (hI : I.Of P.sites) (hE : I.Ends P M0) (hr : P.Chains r) (all : List ι) (hall : ∀ i, i ∈ all)
    {act : Nat → List L} (h : I.Endless P M0 N who act) (n : Nat) : ∃ m, n ≤ m ∧ act m ≠ [] := by
  refine Classical.byContradiction fun e => ?_
  have hn : ∀ m, n ≤ m → act m = [] := fun m hm => Classical.byContradiction fun h => e ⟨m, hm, h⟩
  have key : ∀ l : List ι, ∃ n0, ∀ m, n0 ≤ m → who m ∉ l := by
    intro l
    induction l with
    | nil => exact ⟨0, fun _ _ => List.not_mem_nil⟩
    | cons i l ih =>
      obtain ⟨n1, h1⟩ := ih
      obtain ⟨n2, h2⟩ := C131_rests hI hE hr h hn i
      refine ⟨n1 + n2, fun m hm hc => ?_⟩
      rcases List.mem_cons.1 hc with hc | hc
      · exact h2 m (by omega) hc
      · exact h1 m (by omega) hc
  obtain ⟨n0, h1⟩ := key all
  exact h1 n0 (Nat.le_refl _) (hall _)

/-! ## Endless executions step by step -/

theorem ByteFrom.head {M M1 : Cores ι (Footing κ)} {tr : List (ι × L)} {c : Option (Cores ι (Footing κ))} (h : ByteFrom P I M tr c) :
    c = some M1 → tr = [] ∧ M1 = M ∨ ∃ i ls M' tr', ByteMove P I M i ls (some M') ∧ ByteFrom P I M' tr' (some M1) := by
  induction h generalizing M1 with
  | start => intro e; cases e; exact .inl ⟨rfl, rfl⟩
  | step h hs ih =>
    intro e
    subst e
    rcases ih rfl with ⟨_, rfl⟩ | ⟨i, ls, M', tr', h1, h2⟩
    · exact .inr ⟨_, _, _, _, hs, .start⟩
    · exact .inr ⟨i, ls, M', _, h1, h2.step hs⟩

/-- It goes on forever from here. -/
def Lives (P : CoreGuest κ L) (I : Image κ) (M : Cores ι (Footing κ)) : Prop :=
  ∃ (tr : List (ι × L)) (s : Nat → ι × L) (N : Nat → Cores ι (Footing κ)), ByteFrom P I M tr (some (N 0)) ∧
    ∀ n, ByteFrom P I (N n) [s n] (some (N (n + 1)))

theorem Lives.step {M : Cores ι (Footing κ)} (h : Lives P I M) : ∃ p : ι × List L × Cores ι (Footing κ),
    ByteMove P I M p.1 p.2.1 (some p.2.2) ∧ Lives P I p.2.2 := by
  obtain ⟨tr, s, N, h1, h2⟩ := h
  rcases h1.head rfl with ⟨_, e⟩ | ⟨i, ls, M', tr', h3, h4⟩
  · rcases (h2 0).head rfl with ⟨e', _⟩ | ⟨i, ls, M', tr', h3, h4⟩
    · cases e'
    · rw [e] at h3
      exact ⟨(i, ls, M'), h3, tr', fun n => s (n + 1), fun n => N (n + 1), h4, fun n => h2 (n + 1)⟩
  · exact ⟨(i, ls, M'), h3, tr', s, N, h4, h2⟩

/-- **C131, endless executions.** What goes on forever in the sense of C130 does so step by step. -/
theorem C131_endless {s : Nat → ι × L} {v : Nat → Mem} {q : Nat → ι → κ} (h : I.Emits P A M0 s v q) :
    ∃ N who act, I.Endless P M0 N who act := by
  obtain ⟨N, h0, h⟩ := h
  have hl : Lives P I M0.load := ⟨[], s, N, by rw [h0]; exact .start, fun n => (h n).1⟩
  let c : Nat → { M // Lives P I M } :=
    fun n => Nat.rec ⟨M0.load, hl⟩ (fun _ M => ⟨(Classical.choose M.2.step).2.2, (Classical.choose_spec M.2.step).2⟩) n
  exact ⟨fun n => (c n).1, fun n => (Classical.choose (c n).2.step).1, fun n => (Classical.choose (c n).2.step).2.1, rfl,
    fun n => (Classical.choose_spec (c n).2.step).1⟩

/-! ## Example -/

theorem note_chains : noteProg.Chains fun k => 21 - k := by
  intro k c k' h
  have h : scriptSite recScript k = some (c, k') := h
  unfold scriptSite at h
  split at h
  · next e =>
    cases h
    unfold recScript at e
    split at e <;> cases e <;> decide
  · cases h

/-- The two threads of `C130_example`, which may wait forever: whatever they do, the outside world hears of it again and again. -/
theorem C131_example (b : Bool → W) (avx : Bool) : ∃ I : Image Nat, I.Of noteProg.sites ∧ I.avx = avx ∧
    (∃ N who act, I.Endless (noteProg.await (· = 1) 5) (note0 b) N who act) ∧
    ∀ N who act, I.Endless (noteProg.await (· = 1) 5) (note0 b) N who act → ∀ n, ∃ m, n ≤ m ∧ act m ≠ [] := by
  obtain ⟨I, h1, h2, _, h3⟩ := C130_example b avx fun n => n % 2 == 0
  have hR := C123_respects note_fair (note_loses b)
  have hS : ∀ k, k = 1 → ¬ noteProg.locked k := fun k hk => by subst hk; exact (by decide : ¬ (1 : Nat) = 15)
  have hE : I.Ends (noteProg.await (· = 1) 5) (note0 b) :=
    C127_ends (P := noteProg.await (· = 1) 5) ⟨h1.none, h1.some⟩ (await_respects hS hR) (await_honest hS
      (honest_full Small.fullBinaryOk recProg_ok.full (note_follows b) hR fun _ M i _ => pair_depth i (M.pos i)))
      (fun i => recorded_region (pair0_recorded b i) rfl fun _ hx => note0_view b i i (.inl hx))
      (note_follows b).frameless
  exact ⟨I, h1, h2, C131_endless h3, fun N who act h => C131_heard (P := noteProg.await (· = 1) 5) (r := fun k => 21 - k) ⟨h1.none, h1.some⟩ hE note_chains [true, false]
    (fun i => by cases i <;> decide) h⟩

end Verif
