import Verif.Props.RefinePlan
import Verif.Props.FullMode

/-!
# C105: programs instrumented in full mode do what the originals do
-/

namespace Verif

section
variable {fl : InstrFlags} {skip : List Nat} {co : CodeObj} {info : StackInfo} {bf : Func → BFunc}
  {plan : Func → Plan} {B : Binary} {jf : JitFlags} {frame : Func → Reg}

/-- Every snippet of full mode fits, and clobbers nothing but the flags and 16 bytes below the stack pointer. -/
theorem full_within (hB : FullBinaryOk B jf co) (hb : BuiltFull fl skip co bf plan) {f : Func}
    (hf : f ∈ co.funcs) {ev : Ev} {pl : Place} {c : Code} {s : State} {r : W}
    (h : B.FullSnippetAt jf co plan f ev pl c s r) :
    SnipFitsIn False (frame f) (fun _ => False) pl.width c s r ev := by
  have none_free : ∀ r, ¬ ScratchFree jf [] none r := fun r h => by cases h.2
  have at_sp : ∀ {s : State} {R : W}, AtHeight R (-8) s → s.retAddr 0 = R := fun h => by
    rw [atHeight_entry] at h
    unfold State.retAddr
    rw [h]
    bv_omega
  cases pl with
  | edge => cases ev <;> exact h.elim
  | insn => cases ev <;> exact h.elim
  | blk b =>
    cases ev with
    | block => exact h.elim
    | push =>
      obtain ⟨ps, cs, hp, hm, hc, hh⟩ := h
      obtain ⟨rfl, rfl⟩ := hb.full_eq hf hp
      rw [List.mem_singleton.mp hm, hB.entry f hf] at hh
      exact .push (d := 0) id ⟨jf, none, false, 0, false, co.start b, 0, none, hB.normal, rfl, scratch_none jf, hc,
        rfl, rfl, rfl⟩ (belowSp_le _ _ _) none_free (at_sp hh)
    | check =>
      obtain ⟨ps, cs, hp, hm, hc, hh⟩ := h
      obtain ⟨rfl, rfl⟩ := hb.full_eq hf hp
      obtain ⟨h1, h2⟩ := List.mem_filter.mp hm
      rw [hB.exit f hf b h1 (by simpa using h2)] at hh
      exact .check (d := 0) id ⟨jf, none, false, co.start b, co.last b, none, hB.normal, rfl, scratch_none jf, hc,
        rfl, rfl, rfl⟩ (belowSp_le _ _ _) none_free (at_sp hh)

/-- Pushes and checks come in order. -/
theorem full_ordered (hb : BuiltFull fl skip co bf plan) {ok : Edge → Prop} (loose : Prop)
    (hex : ∀ f ∈ co.funcs, ∀ b ∈ co.exitBlocks f, isNonreturningCall (co.targets b) = false →
      ∀ e ∈ co.targets b, ¬ ok e) :
    InOrder (semOn ok co plan info (fun _ => False) (staysOf bf)) loose := by
  refine shape_ordered (wr := Risky co info) fun f hf hne es b' hw => .inl ?_
  have hfo := hb.func f hf
  by_cases hl : (bf f).noReturn = true ∨ (bf f).region ≠ ".text"
  · exact absurd (hb.left f hf hl) hne
  · rw [hb.plan_eq hf (by simpa using fun h' => hl (.inl h'))
      (Classical.byContradiction fun h' => hl (.inr h'))]
    change Pre _ _ _ _ (pointTrace _ _ _ _)
    unfold pointTrace
    rw [show [co.entry f].count (co.entry f) = 1 by simp]
    refine point_mid (fun b => ?_) (hex f hf) (fun b h1 h2 => exit_noCall hfo h1 h2) hw _
    rw [filter_count hfo.nodup]
    simp

variable {κ L : Type} {P : Guest κ L} {D : Blind κ} {view : κ → List XAct} {g : W} {k0 : κ} {s0 : State}

/-- **C105.** A program instrumented in full mode does what the original does and is not killed, if the
original leaves its return addresses alone, does not look at the flags after a check nor at the 16 bytes below
the stack pointer after a snippet, and has enough shadow stack for the depth of its calls.  Neither unknown
jumps nor functions outside `.text` matter.  Missing: exits with successors in the function, for which it is
false. -/
theorem C105_same_behaviour_partial (hB : FullBinaryOk B jf co) (hb : BuiltFull fl skip co bf plan)
    (hP : P.Follows (semOf co info plan (fun _ => False) (staysOf bf)) frame (B.FullSnippetAt jf co plan)
      (fun _ _ _ _ => False) D view False g k0 s0)
    (hR : P.Respects D g k0 s0) (hr : Recorded g [] s0)
    (hdepth : ∀ tr k s, BareRun P k0 s0 tr k s → 40 + 8 * (view k).length ≤ regionSize) :
    P.Refines D k0 s0 := by
  refine C103_same_behaviour hR ⟨_, (full_ordered hb False fun f hf b hx _ => (hb.func f hf).exits b hx).accounts
    (fun f t ev pl c s r ht h => full_within hB hb (And.left (b := ∃ _, _) ht) h) hP hR ?_⟩ hr ?_
  · intro tr b k s c k' hrun _ hi _
    have := amid_length id hi.pend
    rw [List.length_map] at this
    have := hdepth tr k s hrun
    omega
  · cases hf : D.frame k0 with
    | none => rfl
    | some r =>
      obtain ⟨a, as, e, h, _⟩ := (hP.frame k0 r).1 hf
      exact h.elim

/-- **C105 with exceptions and `longjmp`.** The same if activations are abandoned, whatever the handlers are;
no return address ends in 32 zero bits.  Abandoned activations leave entries on the shadow stack: there must be
room for them.  Missing: as before. -/
theorem C105_unwinding_partial (hB : FullBinaryOk B jf co) (hb : BuiltFull fl skip co bf plan)
    (hh : ∀ f ∈ co.funcs, HandlersOk co (bf f) f)
    (hP : P.Follows (semOn Flow co plan info (fun _ => False) (staysOf bf)) frame (B.FullSnippetAt jf co plan)
      (fun _ _ _ _ => False) D view True g k0 s0)
    (hR : P.Respects D g k0 s0) (hr : Recorded g [] s0)
    (hroom : ∀ l k s, Announced P (semOn Flow co plan info (fun _ => False) (staysOf bf)) view k0 s0 l k s →
      40 + 8 * l.length ≤ regionSize) :
    P.Refines D k0 s0 := by
  refine C103_same_behaviour hR ⟨_, (full_ordered hb True fun f hf => (hh f hf).exits).accounts
    (fun f t ev pl c s r ht h => full_within hB hb (And.left (b := ∃ _, _) ht) h) hP hR ?_⟩ hr ?_
  · intro tr b k s c k' _ _ _ ht
    have := hroom _ _ _ ht
    omega
  · cases hf : D.frame k0 with
    | none => rfl
    | some r =>
      obtain ⟨a, as, e, h, _⟩ := (hP.frame k0 r).1 hf
      exact h.elim

end

end Verif
