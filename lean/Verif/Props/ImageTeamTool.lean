import Verif.Props.ImageTeam
import Verif.Props.RefineTeamExamples

/-! # C118 for the binaries which the tool writes -/

namespace Verif

variable {ι κ L : Type} [DecidableEq ι] {P : Guest κ L} {I : Image κ} {D : ι → Blind κ} {view : ι → κ → List XAct}
  {g : ι → W} {M0 : Squad ι κ}

section Light

variable {B : Binary} {fl : InstrFlags} {jf : JitFlags} {skip : List Nat} {co : CodeObj} {info : StackInfo}
  {R : Func → RegFacts} {T : Sums} {bf : Func → BFunc} {plan : Func → Plan} {dead : Func → DeadNames} {frame : Func → Reg}

/-- **C118, light mode**: C109 for the bytes. -/
theorem C118_light_partial (hI : I.Of P) (hB : BinaryOk B fl jf co info R bf dead frame)
    (hb : Built fl skip co info R T bf plan) (hcall : ∀ f ∈ co.funcs, NoCallAtCheck fl co (bf f))
    (hP : P.TeamFollows (semOf co info plan (inRegOf fl T) (staysOf bf)) frame
      (B.SnippetAt jf (fun f => (T f).jit (dead f)) co plan) (B.Spoils jf co dead) D view False g M0)
    (hR : P.TeamRespects D g (stackOf g view) M0) (hr : ∀ i, Recorded (g i) [] (M0.at_ i))
    (hdepth : ∀ tr M i, SquadRun P M0 tr M → 40 + 8 * (view i (M.pos i)).length ≤ regionSize) :
    I.TeamRefines P D M0 :=
  C118_same_behaviour hI (C109_light_partial hB hb hcall hP hR hr hdepth)

/-- **C118, light mode, with exceptions and `longjmp`.** -/
theorem C118_unwinding_partial (hI : I.Of P) (hB : BinaryOk B fl jf co info R bf dead frame)
    (hb : Built fl skip co info R T bf plan) (hcall : ∀ f ∈ co.funcs, NoCallAtCheck fl co (bf f))
    (hh : ∀ f ∈ co.funcs, HandlersOk co (bf f) f)
    (hn : ∀ f ∈ co.funcs, inRegOf fl T f → ∀ b ∈ co.blocks f, ∀ e ∈ co.targets b, e.type ≠ .catch)
    (hP : P.TeamFollows (semOn Flow co plan info (inRegOf fl T) (staysOf bf)) frame
      (B.SnippetAt jf (fun f => (T f).jit (dead f)) co plan) (B.Spoils jf co dead) D view True g M0)
    (hR : P.TeamRespects D g (stackOf g view) M0) (hr : ∀ i, Recorded (g i) [] (M0.at_ i))
    (hroom : ∀ i l M, TeamAnnounced P (semOn Flow co plan info (inRegOf fl T) (staysOf bf)) view M0 i l M →
      40 + 8 * l.length ≤ regionSize) :
    I.TeamRefines P D M0 :=
  C118_same_behaviour hI (C109_unwinding_partial hB hb hcall hh hn hP hR hr hroom)

end Light

section Full

variable {B : Binary} {fl : InstrFlags} {jf : JitFlags} {skip : List Nat} {co : CodeObj} {info : StackInfo}
  {bf : Func → BFunc} {plan : Func → Plan} {frame : Func → Reg}

/-- **C118, full mode.** -/
theorem C118_full_partial (hI : I.Of P) (hB : FullBinaryOk B jf co) (hb : BuiltFull fl skip co bf plan)
    (hP : P.TeamFollows (semOf co info plan (fun _ => False) (staysOf bf)) frame (B.FullSnippetAt jf co plan)
      (fun _ _ _ _ => False) D view False g M0)
    (hR : P.TeamRespects D g (stackOf g view) M0) (hr : ∀ i, Recorded (g i) [] (M0.at_ i))
    (hdepth : ∀ tr M i, SquadRun P M0 tr M → 40 + 8 * (view i (M.pos i)).length ≤ regionSize) :
    I.TeamRefines P D M0 :=
  C118_same_behaviour hI (C109_full_partial hB hb hP hR hr hdepth)

/-- **C118, full mode, with exceptions and `longjmp`.** -/
theorem C118_full_unwinding_partial (hI : I.Of P) (hB : FullBinaryOk B jf co) (hb : BuiltFull fl skip co bf plan)
    (hh : ∀ f ∈ co.funcs, HandlersOk co (bf f) f)
    (hP : P.TeamFollows (semOn Flow co plan info (fun _ => False) (staysOf bf)) frame (B.FullSnippetAt jf co plan)
      (fun _ _ _ _ => False) D view True g M0)
    (hR : P.TeamRespects D g (stackOf g view) M0) (hr : ∀ i, Recorded (g i) [] (M0.at_ i))
    (hroom : ∀ i l M, TeamAnnounced P (semOn Flow co plan info (fun _ => False) (staysOf bf)) view M0 i l M →
      40 + 8 * l.length ≤ regionSize) :
    I.TeamRefines P D M0 :=
  C118_same_behaviour hI (C109_full_unwinding_partial hB hb hh hP hR hr hroom)

end Full

/-! ## Example -/

/-- The bytes of the seven snippets of `recScript`, each 512 bytes behind the one before. -/
theorem rec_image (avx : Bool) : ∃ I : Image Nat, I.Of (scriptGuest recScript) ∧ I.avx = avx :=
  image_exists (scriptGuest recScript) (idx := id) (fun _ _ _ _ h => h)
    (fun k hk => by
      have : k ≤ 19 := by
        apply Classical.byContradiction
        intro hn
        apply hk
        match k, hn with
        | k + 20, _ => rfl
      simp only [id_eq]; omega)
    (fun k c k' h => by
      have key : ∀ c ∈ [demoPush, demoCheck], ∃ bs, assemble c = some bs ∧ bs.length ≤ 512 := by
        have : ∀ c ∈ [demoPush, demoCheck], (assemble c).any (fun bs => decide (bs.length ≤ 512)) = true := by
          decide +kernel
        intro c hc
        have := this c hc
        cases e : assemble c with
        | none => rw [e] at this; cases this
        | some bs => rw [e] at this; exact ⟨bs, rfl, by simpa using this⟩
      have h : scriptSite recScript k = some (c, k') := h
      apply key
      match k, h with
      | 0, h | 4, h | 7, h | 10, h | 13, h | 16, h | 18, h => cases h; simp
      | 1, h | 2, h | 3, h | 5, h | 6, h | 8, h | 9, h | 11, h | 12, h | 14, h | 15, h | 17, h | 19, h => cases h
      | k + 20, h => cases h) avx 0x500000

/-- Two threads execute the recursive program of `C109_example`, and the same bytes, on a processor with AVX-512 or
without; both get to their ends. -/
theorem C118_example (b : Bool → W) (avx : Bool) : ∃ I : Image Nat, I.Of (scriptGuest recScript) ∧ I.avx = avx ∧
    I.TeamRefines (scriptGuest recScript) pairBlind (pair0 b) ∧
    (b = (fun _ => 0) → ∃ tr N, TeamTicks (scriptGuest recScript) I (pair0 b) tr (some N) ∧ ∀ i, N.pos i = .own 20) := by
  obtain ⟨I, h1, h2⟩ := rec_image avx
  have hR := C118_same_behaviour h1 (C109_example b)
  refine ⟨I, h1, h2, hR, ?_⟩
  rintro rfl
  obtain ⟨tr, M, h3, h4⟩ := pair_runs
  obtain ⟨N, h5, h6⟩ := hR.forth tr M h3
  exact ⟨tr, N, h5, fun i => by rw [(h6 i).1, h4]⟩

/-- In these snippets `0x62` is undefined, whatever stands behind them: the hypotheses of `C118_same_runs` are met. -/
theorem rec_undefined (I : Image Nat) : I.Undefined (scriptGuest recScript) := by
  intro k c k' a n k'' h _ _ hill
  have h : scriptSite recScript k = some (c, k') := h
  have key : c = demoPush ∨ c = demoCheck := by
    match k, h with
    | 0, h | 4, h | 7, h | 10, h | 13, h | 16, h | 18, h => cases h; simp
    | 1, h | 2, h | 3, h | 5, h | 6, h | 8, h | 9, h | 11, h | 12, h | 14, h | 15, h | 17, h | 19, h => cases h
    | k + 20, h => cases h
  rcases key with rfl | rfl
  · exact absurd hill (by decide)
  · exact C93_full (fl := {}) (useOrig := false) (blockStart := 0) (addr := 0) (by decide) (by decide) (by decide +kernel) _

example (b : Bool → W) (avx : Bool) : ∃ I : Image Nat, I.Of (scriptGuest recScript) ∧ I.avx = avx ∧
    ∀ tr, TeamTicks (scriptGuest recScript) I (pair0 b) tr none ↔ ArmedSquad (scriptGuest recScript) (pair0 b) tr none := by
  obtain ⟨I, h1, h2⟩ := rec_image avx
  exact ⟨I, h1, h2, fun _ => (C118_same_runs h1 (rec_undefined I)).2.2⟩

end Verif
