import Verif.Forever
import Verif.Props.Futures

/-! # C130: instrumented programs run forever as the originals do, and stop where they stop -/

namespace Verif

variable {ι κ L : Type} [DecidableEq ι] {P : CoreGuest κ L} {D : ι → Blind κ} {g : ι → W} {A : ι → W → Prop}
  {M0 M M' : Cores ι κ} {I : Image κ}

/-- A relation which steps preserve is preserved forever. -/
theorem follow_forever {α β σ : Type} {R : α → β → Prop} {F : α → σ → α → Prop} {G : β → σ → β → Prop}
    (h : ∀ a b s a', R a b → F a s a' → ∃ b', G b s b' ∧ R a' b') {a : Nat → α} {s : Nat → σ}
    (ha : ∀ n, F (a n) (s n) (a (n + 1))) {b0 : β} (h0 : R (a 0) b0) :
    ∃ b : Nat → β, b 0 = b0 ∧ ∀ n, G (b n) (s n) (b (n + 1)) ∧ R (a n) (b n) := by
  have step : ∀ n (b : { b // R (a n) b }), ∃ b' : { b // R (a (n + 1)) b }, G b.1 (s n) b'.1 := fun n b => by
    obtain ⟨b', h1, h2⟩ := h _ _ _ _ b.2 (ha n)
    exact ⟨⟨b', h2⟩, h1⟩
  let c : ∀ n, { b // R (a n) b } := fun n => Nat.rec ⟨b0, h0⟩ (fun n b => Classical.choose (step n b)) n
  exact ⟨fun n => (c n).1, rfl, fun n => ⟨Classical.choose_spec (step n (c n)), (c n).2⟩⟩

/-- **C130.** The original may go on forever in some way if and only if the program in memory may, with the same actions of the same
threads in the same order, the same memory outside of the areas and the same points of the program on the way. -/
theorem C130_forever (h : I.Bisimilar P D A M0) (s : Nat → ι × L) (v : Nat → Mem) (q : Nat → ι → κ) :
    P.Emits A M0 s v q ↔ I.Emits P A M0 s v q := by
  obtain ⟨R, hB, h0⟩ := h
  constructor
  · rintro ⟨M, rfl, hM⟩
    obtain ⟨N, h1, h2⟩ := follow_forever (G := fun b s b' => ByteFrom P I b [s] (some b'))
      (fun a b s a' hR hF => hB.forth a b [s] a' hR hF) (fun n => (hM n).1) h0
    refine ⟨N, h1, fun n => ⟨(h2 n).1, fun x hx => ?_, fun i => ?_⟩⟩
    · rw [hB.mem _ _ (h2 n).2 x hx]; exact (hM n).2.1 x hx
    · rw [(hB.same _ _ (h2 n).2 i).1]; exact (hM n).2.2 i
  · rintro ⟨N, h1, hN⟩
    obtain ⟨M, h3, h2⟩ := follow_forever (R := fun b a => R a b) (G := fun a s a' => CoreRun P a [s] a') (a := N) (b0 := M0)
      (F := fun b s b' => ByteFrom P I b [s] (some b'))
      (fun a b s a' hR hF => by
        obtain ⟨M', N', e, k1, k2⟩ := hB.back _ _ _ _ hR hF
        cases e
        exact ⟨M', k1, k2⟩) (fun n => (hN n).1) (by rw [h1]; exact h0)
    refine ⟨M, h3, fun n => ⟨(h2 n).1, fun x hx => ?_, fun i => ?_⟩⟩
    · rw [← hB.mem _ _ (h2 n).2 x hx]; exact (hN n).2.1 x hx
    · rw [← (hB.same _ _ (h2 n).2 i).1]; exact (hN n).2.2 i

/-- **C130, refusals.** After the same actions, both programs may be in a state in which they can do none of `X`, or neither. -/
theorem C130_refuses (h : I.Bisimilar P D A M0) (tr : List (ι × L)) (X : ι × L → Prop) :
    P.Refuses M0 tr X ↔ I.Refuses P M0 tr X := by
  obtain ⟨R, hB, h0⟩ := h
  constructor
  · rintro ⟨M, h1, h2⟩
    obtain ⟨N, h3, h4⟩ := hB.forth _ _ _ _ h0 h1
    refine ⟨N, h3.run, fun e c hX hc => ?_⟩
    obtain ⟨M', _, _, h5, _⟩ := hB.back _ _ _ _ h4 hc
    exact h2 e M' hX h5
  · rintro ⟨N, h1, h2⟩
    obtain ⟨M, _, e, h3, h4⟩ := hB.back _ _ _ _ h0 h1.later
    cases e
    refine ⟨M, h3, fun e M' hX hM => ?_⟩
    obtain ⟨N', h5, _⟩ := hB.forth _ _ _ _ h4 hM
    exact h2 e _ hX h5

/-- **C130, the end.** What the original may do before it stops for good, the program in memory may do before it stops for good, and
nothing else. -/
theorem C130_complete (h : I.Bisimilar P D A M0) (tr : List (ι × L)) :
    (∃ M, CoreRun P M0 tr M ∧ ∀ tr', P.Next M tr' → tr' = []) ↔
    ∃ N, ByteCores P I M0 tr (some N) ∧ ∀ tr', I.Next P N tr' → tr' = [] := by
  obtain ⟨h1, h2, _⟩ := C126_futures h tr
  constructor
  · rintro ⟨M, hM, hn⟩
    obtain ⟨N, hN, e⟩ := h2 M hM
    exact ⟨N, hN, fun tr' ht => hn tr' ((e tr').2 ht)⟩
  · rintro ⟨N, hN, hn⟩
    obtain ⟨M, hM, e⟩ := h1 N hN
    exact ⟨M, hM, fun tr' ht => hn tr' ((e tr').1 ht)⟩

/-! ## Programs which wait -/

variable {S : κ → Prop} {l : L}

theorem await_move (hS : ∀ k, S k → ¬ P.locked k) {i : ι} {ls : List L} (h : CoreMove (P.await S l) M i ls M') :
    CoreMove P M i ls M' ∨ M' = M := by
  cases h with
  | own hl hs =>
    rcases hs with hs | ⟨_, rfl, rfl, rfl, rfl⟩
    · exact .inl (.own hl hs)
    · exact .inr (M.put_same i)
  | locked hl hb hs =>
    rcases hs with hs | ⟨h, _⟩
    · exact .inl (.locked hl hb hs)
    · exact (hS _ h hl).elim
  | drain hb => exact .inl (.drain hb)

theorem await_run (hS : ∀ k, S k → ¬ P.locked k) {tr : List (ι × L)} (h : CoreRun (P.await S l) M0 tr M) :
    ∃ tr', CoreRun P M0 tr' M := by
  induction h with
  | start => exact ⟨_, .start⟩
  | move _ hs ih =>
    obtain ⟨tr', ih⟩ := ih
    rcases await_move hS hs with hs | rfl
    · exact ⟨_, ih.move hs⟩
    · exact ⟨_, ih⟩
  | pass _ hx ih =>
    obtain ⟨tr', ih⟩ := ih
    exact ⟨_, ih.pass hx⟩

theorem await_respects (hS : ∀ k, S k → ¬ P.locked k) (h : P.Respects D g A M0) : (P.await S l).Respects D g A M0 where
  rsp := h.rsp
  region := h.region
  hidden := h.hidden
  apart := h.apart
  waits := h.waits
  spares tr M i t ws l' k' c hr hs ht := by
    obtain ⟨tr', hr⟩ := await_run hS hr
    rcases ht with ht | ⟨_, rfl, rfl, rfl, rfl⟩
    · exact h.spares _ _ _ _ _ _ _ _ hr hs ht
    · exact ⟨rfl, fun _ hw => (List.not_mem_nil hw).elim, fun _ _ => rfl, rfl⟩
  forth tr M i t ws l' k' c hr hs ht := by
    obtain ⟨tr', hr⟩ := await_run hS hr
    rcases ht with ht | ⟨hk, rfl, rfl, rfl, rfl⟩
    · obtain ⟨ws', c', h1, h2⟩ := h.forth _ _ _ _ _ _ _ _ hr hs ht
      exact ⟨ws', c', .inl h1, h2⟩
    · exact ⟨[], t.cpu, .inr ⟨hk, rfl, rfl, rfl, rfl⟩, rfl, hs⟩
  back tr M i t ws l' k' c hr hs ht := by
    obtain ⟨tr', hr⟩ := await_run hS hr
    rcases ht with ht | ⟨hk, rfl, rfl, rfl, rfl⟩
    · obtain ⟨ws', c', h1, h2⟩ := h.back _ _ _ _ _ _ _ _ hr hs ht
      exact ⟨ws', c', .inl h1, h2⟩
    · exact ⟨[], (M.at_ i).cpu, .inr ⟨hk, rfl, rfl, rfl, rfl⟩, rfl, hs⟩

theorem await_honest (hS : ∀ k, S k → ¬ P.locked k) (h : P.Honest D g A M0) : (P.await S l).Honest D g A M0 := by
  obtain ⟨Q, h⟩ := h
  refine ⟨Q, h.start, ?_, ?_, ?_⟩
  · intro tr M i j b ls M' hr hq hs
    obtain ⟨tr', hr⟩ := await_run hS hr
    rcases await_move hS hs with hs | rfl
    · exact h.move _ _ _ _ _ _ _ hr hq hs
    · exact hq
  · intro tr M i j b c k' hr
    obtain ⟨tr', hr⟩ := await_run hS hr
    exact h.other _ _ _ _ _ _ _ hr
  · intro tr M i b c k' hr
    obtain ⟨tr', hr⟩ := await_run hS hr
    exact h.pass _ _ _ _ _ _ hr

/-- **C130, waiting.** If threads may wait at some points, nothing changes. -/
theorem C130_await (hI : I.Of P.sites) (hP : P.Respects D g A M0) (hH : P.Honest D g A M0)
    (hr : ∀ i, Recorded (g i) [] (M0.at_ i)) (hf : ∀ i, (D i).frame (M0.pos i) = none) (hS : ∀ k, S k → ¬ P.locked k) :
    I.Bisimilar (P.await S l) D A M0 :=
  C126_bisimilar (P := P.await S l) ⟨hI.none, hI.some⟩ (await_respects hS hP) (await_honest hS hH) hr hf

/-! ## Example -/

/-- The threads of `C123_example`, behind the snippet at the beginning of their functions. -/
def noteIn (b : Bool → W) : Cores Bool Nat := ⟨(note0 b).mem, (note0 b).buf, fun _ => 1, (note0 b).cpu⟩

/-- The two threads of `C123_example`, if they may wait behind the snippet at the beginning of their functions, and say 5 whenever
they do: in the program in memory both may wait forever, in any order, while the byte which waits in a buffer stays there. -/
theorem C130_example (b : Bool → W) (avx : Bool) (turn : Nat → Bool) : ∃ I : Image Nat, I.Of noteProg.sites ∧ I.avx = avx ∧
    I.Bisimilar (noteProg.await (· = 1) 5) noteBlind pairArea (note0 b) ∧
    I.Emits (noteProg.await (· = 1) 5) pairArea (note0 b) (fun n => (turn n, 5)) (fun _ => (note0 b).mem)
      (fun n _ => if n = 0 then 0 else 1) := by
  obtain ⟨I, h1, h2⟩ := rec_image avx
  have h1 : I.Of noteProg.sites := ⟨h1.none, h1.some⟩
  have hR := C123_respects note_fair (note_loses b)
  have hB : I.Bisimilar (noteProg.await (· = 1) 5) noteBlind pairArea (note0 b) :=
    C130_await h1 hR
      (honest_full Small.fullBinaryOk recProg_ok.full (note_follows b) hR fun _ M i _ => pair_depth i (M.pos i))
      (fun i => recorded_region (pair0_recorded b i) rfl fun _ hx => note0_view b i i (.inl hx))
      (note_follows b).frameless (fun k hk => by subst hk; exact (by decide : ¬ (1 : Nat) = 15))
  refine ⟨I, h1, h2, hB, (C130_forever hB _ _ _).1
    ⟨fun n => if n = 0 then note0 b else noteIn b, rfl, fun n => ⟨?_, ?_, ?_⟩⟩⟩
  · have wait : CoreRun (noteProg.await (· = 1) 5) (noteIn b) [(turn n, 5)] (noteIn b) := by
      have := (CoreRun.start (P := noteProg.await (· = 1) 5) (M0 := noteIn b)).move (i := turn n) (ls := [5])
        (.own (by exact (by decide : ¬ (1 : Nat) = 15)) (.inr ⟨rfl, rfl, rfl, rfl, rfl⟩))
      have e := (noteIn b).put_same (turn n)
      rw [show ((noteIn b).put (turn n) ((noteIn b).pos (turn n)) ((noteIn b).at_ (turn n)).cpu []) = noteIn b from e] at this
      exact this
    by_cases e : n = 0
    · subst e
      have h : CoreRun (noteProg.await (· = 1) 5) (note0 b) [] (noteIn b) := by
        have := ((CoreRun.start (P := noteProg.await (· = 1) 5) (M0 := note0 b)).pass (i := true) (c := demoPush) (k' := 1) rfl).pass
          (i := false) (c := demoPush) (k' := 1) rfl
        have e : ((note0 b).put true 1 ((note0 b).cpu true) []).put false 1 (((note0 b).put true 1 ((note0 b).cpu true) []).cpu false) []
            = noteIn b := by
          simp only [Cores.put, noteIn, List.append_nil, Cores.mk.injEq, true_and]
          refine ⟨funext fun j => ?_, funext fun j => ?_, funext fun j => ?_⟩ <;> cases j <;> simp
        rw [e] at this
        exact this
      exact h.trans wait
    · simp only [e, if_false]
      exact wait
  · intro x _
    by_cases e : n = 0 <;> simp [e, noteIn]
  · intro i
    by_cases e : n = 0 <;> simp [e, noteIn, note0]

end Verif
