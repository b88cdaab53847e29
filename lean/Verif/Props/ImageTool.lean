import Verif.Props.Image
import Verif.Props.RefineFull
import Verif.Props.RefineLive
import Verif.Props.RefinePlanExamples

/-! # C117 for the binaries which the tool writes -/

namespace Verif

variable {κ L : Type} {P : Guest κ L} {I : Image κ} {D : Blind κ} {view : κ → List XAct} {g : W} {k0 : κ} {s0 : State}

section Light

variable {B : Binary} {fl : InstrFlags} {jf : JitFlags} {skip : List Nat} {co : CodeObj} {info : StackInfo}
  {R : Func → RegFacts} {T : Sums} {bf : Func → BFunc} {plan : Func → Plan} {dead : Func → DeadNames} {frame : Func → Reg}

/-- **C117, light mode**: C104 for the bytes. -/
theorem C117_light_partial (hI : I.Of P) (hB : BinaryOk B fl jf co info R bf dead frame)
    (hb : Built fl skip co info R T bf plan) (hcall : ∀ f ∈ co.funcs, NoCallAtCheck fl co (bf f))
    (hP : P.Follows (semOf co info plan (inRegOf fl T) (staysOf bf)) frame
      (B.SnippetAt jf (fun f => (T f).jit (dead f)) co plan) (B.Spoils jf co dead) D view False g k0 s0)
    (hR : P.Respects D g k0 s0) (hr : Recorded g [] s0)
    (hdepth : ∀ tr k s, BareRun P k0 s0 tr k s → 40 + 8 * (view k).length ≤ regionSize) :
    I.Refines P D k0 s0 :=
  C117_same_behaviour hI (C104_same_behaviour_partial hB hb hcall hP hR hr hdepth)

/-- **C117, light mode, with exceptions and `longjmp`.** -/
theorem C117_light_unwinding_partial (hI : I.Of P) (hB : BinaryOk B fl jf co info R bf dead frame)
    (hb : Built fl skip co info R T bf plan) (hcall : ∀ f ∈ co.funcs, NoCallAtCheck fl co (bf f))
    (hh : ∀ f ∈ co.funcs, HandlersOk co (bf f) f)
    (hn : ∀ f ∈ co.funcs, inRegOf fl T f → ∀ b ∈ co.blocks f, ∀ e ∈ co.targets b, e.type ≠ .catch)
    (hP : P.Follows (semOn Flow co plan info (inRegOf fl T) (staysOf bf)) frame
      (B.SnippetAt jf (fun f => (T f).jit (dead f)) co plan) (B.Spoils jf co dead) D view True g k0 s0)
    (hR : P.Respects D g k0 s0) (hr : Recorded g [] s0)
    (hroom : ∀ l k s, Announced P (semOn Flow co plan info (inRegOf fl T) (staysOf bf)) view k0 s0 l k s →
      40 + 8 * l.length ≤ regionSize) :
    I.Refines P D k0 s0 :=
  C117_same_behaviour hI (C104_unwinding_partial hB hb hcall hh hn hP hR hr hroom)

end Light

section Full

variable {B : Binary} {fl : InstrFlags} {jf : JitFlags} {skip : List Nat} {co : CodeObj} {info : StackInfo}
  {bf : Func → BFunc} {plan : Func → Plan} {frame : Func → Reg}

/-- **C117, full mode**: C105 for the bytes. -/
theorem C117_full_partial (hI : I.Of P) (hB : FullBinaryOk B jf co) (hb : BuiltFull fl skip co bf plan)
    (hP : P.Follows (semOf co info plan (fun _ => False) (staysOf bf)) frame (B.FullSnippetAt jf co plan)
      (fun _ _ _ _ => False) D view False g k0 s0)
    (hR : P.Respects D g k0 s0) (hr : Recorded g [] s0)
    (hdepth : ∀ tr k s, BareRun P k0 s0 tr k s → 40 + 8 * (view k).length ≤ regionSize) :
    I.Refines P D k0 s0 :=
  C117_same_behaviour hI (C105_same_behaviour_partial hB hb hP hR hr hdepth)

end Full

/-! ## Examples -/

/-- The bytes of the four snippets of `demoGuest`. -/
def demoBytes : List (List Byte) := [demoPush, leafPush, leafPop, demoCheck].map fun c => (assemble c).getD []

/-- They stand one behind the other at 0x500000. -/
def demoImage (avx : Bool) : Image DemoPt where
  avx := avx
  text := textWith 0x500000 demoBytes.flatten
  site
    | .enter => some (0x500000, 38, .body)
    | .leaf => some (0x500026, 13, .inside)
    | .out => some (0x500033, 76, .back)
    | .leave => some (0x50007F, 57, .gone)
    | _ => none

example : demoBytes.map List.length = [38, 13, 76, 57] := by decide +kernel

theorem demo_stands (pre : List (List Byte)) (bs : List Byte) (post : List (List Byte)) (a : W)
    (e : demoBytes = pre ++ bs :: post) (ea : a = 0x500000 + BitVec.ofNat 64 pre.flatten.length) :
    Stands (textWith 0x500000 demoBytes.flatten) a bs := by
  have hl : demoBytes.flatten.length < 2 ^ 64 := by decide +kernel
  have := textWith_stands 0x500000 pre.flatten bs post.flatten (by
    rw [e] at hl
    simpa [List.append_assoc] using hl)
  rw [ea, e]
  simpa [List.append_assoc] using this

theorem demoImage_of (avx : Bool) : (demoImage avx).Of demoGuest where
  none k h := by cases k <;> first | rfl | cases h
  some k c k' h := by
    cases k <;> cases h
    · have hl : ((assemble demoPush).getD []).length = 38 := by decide +kernel
      exact ⟨_, (assemble demoPush).getD [], by decide +kernel, demo_stands [] _ (demoBytes.drop 1) _ rfl rfl,
        by decide +kernel, by rw [hl]; rfl⟩
    · have hl : ((assemble leafPush).getD []).length = 13 := by decide +kernel
      exact ⟨_, (assemble leafPush).getD [], by decide +kernel, demo_stands (demoBytes.take 1) _ (demoBytes.drop 2) 0x500026
        rfl (by decide +kernel), by decide +kernel, by rw [hl]; rfl⟩
    · have hl : ((assemble leafPop).getD []).length = 76 := by decide +kernel
      exact ⟨_, (assemble leafPop).getD [], by decide +kernel, demo_stands (demoBytes.take 2) _ (demoBytes.drop 3) 0x500033
        rfl (by decide +kernel), by decide +kernel, by rw [hl]; rfl⟩
    · have hl : ((assemble demoCheck).getD []).length = 57 := by decide +kernel
      exact ⟨_, (assemble demoCheck).getD [], by decide +kernel, demo_stands (demoBytes.take 3) _ [] 0x50007F
        rfl (by decide +kernel), by decide +kernel, by rw [hl]; rfl⟩

/-- A program with both kinds of frames in memory, on a processor with AVX-512 or without: it calls a leaf function three
times and returns, as the original. -/
theorem C117_example (avx : Bool) : (demoImage avx).Refines demoGuest demoBlind .enter demo0.state :=
  C117_same_behaviour (demoImage_of avx) C103_example

/-- The binary of `C104_example`, wherever its bytes are. -/
example (a b : W) (avx : Bool) : ∃ I : Image Nat, I.Of (scriptGuest goodScript) ∧ I.avx = avx ∧
    I.Refines (scriptGuest goodScript) scriptBlind 0 (script0 a b).state := by
  obtain ⟨I, h1, h2⟩ := image_exists (scriptGuest goodScript) (idx := id) (fun _ _ _ _ h => h)
    (fun k hk => by
      have : k ≤ 14 := by
        apply Classical.byContradiction
        intro hn
        apply hk
        match k, hn with
        | 15, _ | 16, _ | k + 17, _ => rfl
      simp only [id_eq]; omega)
    (fun k c k' h => by
      have key : ∀ c ∈ [goodProg.pushAt 0 2, goodProg.pushAt 1 4, goodProg.checkAt 1 4, goodProg.pushAt 2 5,
          goodProg.checkAt 2 5, goodProg.checkAt 0 3], ∃ bs, assemble c = some bs ∧ bs.length ≤ 512 := by
        have : ∀ c ∈ [goodProg.pushAt 0 2, goodProg.pushAt 1 4, goodProg.checkAt 1 4, goodProg.pushAt 2 5,
            goodProg.checkAt 2 5, goodProg.checkAt 0 3], (assemble c).any (fun bs => decide (bs.length ≤ 512)) = true := by
          decide +kernel
        intro c hc
        have := this c hc
        cases e : assemble c with
        | none => rw [e] at this; cases this
        | some bs => rw [e] at this; exact ⟨bs, rfl, by simpa using this⟩
      have h : scriptSite goodScript k = some (c, k') := h
      apply key
      match k, h with
      | 2, h | 5, h | 7, h | 9, h | 11, h | 14, h => cases h; simp
      | 0, h | 1, h | 3, h | 4, h | 6, h | 8, h | 10, h | 12, h | 13, h | 15, h | 16, h => cases h
      | k + 17, h => cases h) avx 0x500000
  exact ⟨I, h1, h2, C117_same_behaviour h1 (C104_example a b)⟩

end Verif
