import Verif.Props.ImageCores
import Verif.Props.ImageTeamTool
import Verif.Props.RefineCoresExamples

/-! # C124 for the binaries which the tool writes -/

namespace Verif

variable {ι κ L : Type} [DecidableEq ι] {P : CoreGuest κ L} {I : Image κ} {D : ι → Blind κ} {view : ι → κ → List XAct}
  {g : ι → W} {A : ι → W → Prop} {M0 : Cores ι κ}

section Light

variable {B : Binary} {fl : InstrFlags} {jf : JitFlags} {skip : List Nat} {co : CodeObj} {info : StackInfo}
  {R : Func → RegFacts} {T : Sums} {bf : Func → BFunc} {plan : Func → Plan} {dead : Func → DeadNames} {frame : Func → Reg}

/-- **C124, light mode**: C123 for the bytes. -/
theorem C124_light_partial (hI : I.Of P.sites) (hB : BinaryOk B fl jf co info R bf dead frame)
    (hb : Built fl skip co info R T bf plan) (hcall : ∀ f ∈ co.funcs, NoCallAtCheck fl co (bf f))
    (hP : P.Follows (semOf co info plan (inRegOf fl T) (staysOf bf)) frame
      (B.SnippetAt jf (fun f => (T f).jit (dead f)) co plan) (B.Spoils jf co dead) D view False g A M0)
    (hR : P.Respects D g A M0) (hr : ∀ i, Recorded (g i) [] (M0.at_ i))
    (hdepth : ∀ tr M i, CoreRun P M0 tr M → 40 + 8 * (view i (M.pos i)).length ≤ regionSize) :
    I.CoreRefines P D A M0 :=
  C124_same_behaviour hI (C123_light_partial hB hb hcall hP hR hr hdepth)

/-- **C124, light mode, with exceptions and `longjmp`.** -/
theorem C124_unwinding_partial (hI : I.Of P.sites) (hB : BinaryOk B fl jf co info R bf dead frame)
    (hb : Built fl skip co info R T bf plan) (hcall : ∀ f ∈ co.funcs, NoCallAtCheck fl co (bf f))
    (hh : ∀ f ∈ co.funcs, HandlersOk co (bf f) f)
    (hn : ∀ f ∈ co.funcs, inRegOf fl T f → ∀ b ∈ co.blocks f, ∀ e ∈ co.targets b, e.type ≠ .catch)
    (hP : P.Follows (semOn Flow co plan info (inRegOf fl T) (staysOf bf)) frame
      (B.SnippetAt jf (fun f => (T f).jit (dead f)) co plan) (B.Spoils jf co dead) D view True g A M0)
    (hR : P.Respects D g A M0) (hr : ∀ i, Recorded (g i) [] (M0.at_ i))
    (hroom : ∀ i l M, CoreAnnounced P (semOn Flow co plan info (inRegOf fl T) (staysOf bf)) view M0 i l M →
      40 + 8 * l.length ≤ regionSize) :
    I.CoreRefines P D A M0 :=
  C124_same_behaviour hI (C123_unwinding_partial hB hb hcall hh hn hP hR hr hroom)

end Light

section Full

variable {B : Binary} {fl : InstrFlags} {jf : JitFlags} {skip : List Nat} {co : CodeObj} {info : StackInfo}
  {bf : Func → BFunc} {plan : Func → Plan} {frame : Func → Reg}

/-- **C124, full mode.** -/
theorem C124_full_partial (hI : I.Of P.sites) (hB : FullBinaryOk B jf co) (hb : BuiltFull fl skip co bf plan)
    (hP : P.Follows (semOf co info plan (fun _ => False) (staysOf bf)) frame (B.FullSnippetAt jf co plan)
      (fun _ _ _ _ => False) D view False g A M0)
    (hR : P.Respects D g A M0) (hr : ∀ i, Recorded (g i) [] (M0.at_ i))
    (hdepth : ∀ tr M i, CoreRun P M0 tr M → 40 + 8 * (view i (M.pos i)).length ≤ regionSize) :
    I.CoreRefines P D A M0 :=
  C124_same_behaviour hI (C123_full_partial hB hb hP hR hr hdepth)

/-- **C124, full mode, with exceptions and `longjmp`.** -/
theorem C124_full_unwinding_partial (hI : I.Of P.sites) (hB : FullBinaryOk B jf co) (hb : BuiltFull fl skip co bf plan)
    (hh : ∀ f ∈ co.funcs, HandlersOk co (bf f) f)
    (hP : P.Follows (semOn Flow co plan info (fun _ => False) (staysOf bf)) frame (B.FullSnippetAt jf co plan)
      (fun _ _ _ _ => False) D view True g A M0)
    (hR : P.Respects D g A M0) (hr : ∀ i, Recorded (g i) [] (M0.at_ i))
    (hroom : ∀ i l M, CoreAnnounced P (semOn Flow co plan info (fun _ => False) (staysOf bf)) view M0 i l M →
      40 + 8 * l.length ≤ regionSize) :
    I.CoreRefines P D A M0 :=
  C124_same_behaviour hI (C123_full_unwinding_partial hB hb hh hP hR hr hroom)

end Full

/-! ## Example -/

/-- The two threads of `C123_example` execute the same bytes, on a processor with AVX-512 or without; when one has stored the
shared byte and the other does not see it yet, so it is in the original. -/
theorem C124_example (b : Bool → W) (avx : Bool) : ∃ I : Image Nat, I.Of noteProg.sites ∧ I.avx = avx ∧
    I.CoreRefines noteProg noteBlind pairArea (note0 b) ∧
    (∀ tr, ByteCores noteProg I (note0 b) tr none ↔ ArmedCores noteProg (note0 b) tr none) ∧
    (b = (fun _ => 0) → ∃ tr N, ByteCores noteProg I (note0 b) tr (some N) ∧ N.view false noteAddr = 1 ∧
      N.view true noteAddr = 0) := by
  obtain ⟨I, h1, h2⟩ := rec_image avx
  have h1 : I.Of noteProg.sites := ⟨h1.none, h1.some⟩
  have hu : I.Undefined noteProg.sites := rec_undefined I
  have hR := C124_same_behaviour h1 (C123_example b)
  refine ⟨I, h1, h2, hR, fun _ => (C124_same_runs h1 hu).2.2, ?_⟩
  rintro rfl
  obtain ⟨tr, M, h3, h4, h5⟩ := note_waits
  obtain ⟨N, h6, _, h7⟩ := hR.forth tr M h3
  have key : ∀ i, N.view i noteAddr = M.view i noteAddr := fun i => by
    refine (h7 i).2.mem noteAddr ?_
    rintro ((h | h) | ⟨j, _, h⟩)
    · exact (note_free i).1 (.inl h)
    · exact (note_free i).1 (.inr ⟨h.1, h.2.2⟩)
    · exact (note_free j).1 h
  exact ⟨tr, N, h6, by rw [key, h4], by rw [key, h5]⟩

end Verif
