import Verif.Props.ByteTeamExamples

/-! # C119: what the bytes of snippets change -/

namespace Verif

variable {m : ProgSem} {frame : Func → Reg} {snip : Func → Ev → Code → State → W → Prop} {avx : Bool}
  {text : W → Byte} {g : Nat → W}

/-- **C119, the footprint.** An instruction of the bytes of a snippet changes only the thread's own shadow region,
the return address of its innermost activation and 16 bytes below its stack pointer. -/
theorem C119_footprint {writes : Func → Prop} (hs : Sound m writes)
    (hfit : ∀ f t ev c s R, m.trace f (t ++ [ev]) → snip f ev c s R → SnipFits (m.inReg f) (frame f) c s R ev)
    (hu : ByteUndefined snip avx text) {mem0 mem : Mem} {T : Nat → Option Task} {ps : List ByteProc}
    (h : Trail (ByteStep m frame snip avx text g) (.run mem0 fun _ => none) (.run mem T :: ps)) {i n : Nat}
    {b x x' : W} {ev : Ev} {s0 s s' : State} {a : XAct} {as : List XAct}
    (hT : T i = some (.busy b n x ev s0 s a as)) (hx : Inside b n x)
    (hgo : executeAt avx text x (s.over mem) = .next x' s') (y : W)
    (hy : ¬ SnipFoot (g i) a.at_ (s0.regs .rsp) 16 y) : s'.mem y = mem y := by
  rcases byte_trail hu h with ⟨_, _, U, qs, e, hr, ht, _⟩ | ⟨_, _, _, e, _⟩
  · cases e
    obtain ⟨w', hU, hw⟩ := hr.get hT
    cases hw with
    | @busy _ _ _ _ _ _ t _ _ _ _ hc hk =>
      obtain ⟨hn, ⟨rfl, _⟩ | ⟨_, i, k1, h5, ⟨rfl, h6⟩ | ⟨x1, s1, k', h6, h7, _⟩⟩⟩ := hk.back (s.over mem)
      · exact absurd hx (inside_end hn)
      · rw [h6] at hgo; cases hgo
      · rw [h7] at hgo; cases hgo
        obtain ⟨t', qs', h1, h2, _⟩ := skip_trail h5 ht hU
        rw [(hc mem).trans (h1 mem)] at h6
        exact ((h2.project hs hfit _ _ (setAt_same _ _ _)).instr h6).2 y hy
  · cases e

/-- So it does not disturb the other threads unless one of them relies on these bytes. -/
theorem C119_spares {writes : Func → Prop} (hs : Sound m writes)
    (hfit : ∀ f t ev c s R, m.trace f (t ++ [ev]) → snip f ev c s R → SnipFits (m.inReg f) (frame f) c s R ev)
    (hu : ByteUndefined snip avx text) {mem0 mem : Mem} {T : Nat → Option Task} {ps : List ByteProc}
    (h : Trail (ByteStep m frame snip avx text g) (.run mem0 fun _ => none) (.run mem T :: ps)) {i n : Nat}
    {b x x' : W} {ev : Ev} {s0 s s' : State} {a : XAct} {as : List XAct}
    (hT : T i = some (.busy b n x ev s0 s a as)) (hx : Inside b n x)
    (hgo : executeAt avx text x (s.over mem) = .next x' s')
    (hd : ∀ j w, j ≠ i → T j = some w → ∀ y, w.needs (g j) y → ¬ SnipFoot (g i) a.at_ (s0.regs .rsp) 16 y) :
    ByteStep m frame snip avx text g (.run mem T) (.run s'.mem (setAt T i (some (.busy b n x' ev s0 s' a as)))) := by
  have hin : Inside b n x' ∨ x' = b + BitVec.ofNat 64 n := by
    rcases byte_trail hu h with ⟨_, _, U, qs, e, hr, ht, _⟩ | ⟨_, _, _, e, _⟩
    · cases e
      obtain ⟨w', hU, hw⟩ := hr.get hT
      cases hw with
      | busy hc hk =>
        obtain ⟨hn, ⟨rfl, _⟩ | ⟨_, i, k1, h5, ⟨rfl, h6⟩ | ⟨x1, s1, k', h6, h7, h8⟩⟩⟩ := hk.back (s.over mem)
        · exact absurd hx (inside_end hn)
        · rw [h6] at hgo; cases hgo
        · rw [h7] at hgo; cases hgo
          exact h8.rip
    · cases e
  exact .instr hT hx hgo hin fun j w hj hw y hn => C119_footprint hs hfit hu h hT hx hgo y (hd j w hj hw y hn)

/-- Example for `C119_footprint` and `C119_spares`: both threads have come to the bytes of their pushes, and the
first one executes `push r10`. -/
example : ∃ mem mem' T s' ps,
    Trail (ByteStep tryProg.excSem frame tryProg.snip false tryText twoRegions) (.run twoMem fun _ => none)
      (.run mem' (setAt T 0 (some (.busy 0x500000 38 0x500002 .push oneState s' ⟨2, [], 0x401000, 0x7000⟩ []))) ::
        .run mem T :: ps) ∧
    T 1 = some (.busy 0x500000 38 0x500000 .push otherState otherState ⟨2, [], 0x402000, 0x9000⟩ []) ∧
    mem'.read64 0x6ff8 = 5 := by
  have e1 : oneState.mem.read64 0x7000 = 0x401000 := by decide
  have e2 : otherState.mem.read64 0x9000 = 0x402000 := by decide
  have r1 := (Trail.start (step := ByteStep tryProg.excSem frame tryProg.snip false tryText twoRegions)
    (p := .run twoMem fun _ => none)).step (.spawn (i := 0) 2 0x7000 rfl one_recorded (fun _ _ _ h => by cases h))
  have r2 := r1.step (.spawn (i := 1) (s := otherState) 2 0x9000 (by simp [setAt]) other_recorded
    fun _ _ _ _ _ _ => rfl)
  rw [e1, e2] at r2
  have r3 := r2.step (.begin (i := 0) (b := 0x500000) (n := 38) rfl tryProg_pushes
    (tryPush_snip (by decide)) ⟨tryBytes, try_bytes, try_stands, try_length, by decide⟩ (one_clear (by decide))
    (one_recorded.hasRoom.mpr (by decide)))
  have r4 := r3.step (.begin (i := 1) (b := 0x500000) (n := 38) rfl tryProg_pushes
    (tryPush_snip (by decide)) ⟨tryBytes, try_bytes, try_stands, try_length, by decide⟩ (other_clear (by decide))
    (other_recorded.hasRoom.mpr (by decide)))
  have hs := built_sound_handlers tryProg_ok.built tryProg_calls
    (tryProg_ok.built.covered (tryProg_ok.noRecursion (by decide +kernel))) tryProg_tails
    (Small.allIn rfl rfl rfl) tryProg_ok.handlers tryProg_cleanup
  have hfit : ∀ f t ev c s R, tryProg.excSem.trace f (t ++ [ev]) → tryProg.snip f ev c s R →
      SnipFits (tryProg.excSem.inReg f) (frame f) c s R ev := fun _ _ _ _ _ _ ht h =>
    snippets_fit (tryProg.binaryOk rfl frame) tryProg_ok.built tryProg_calls (And.left (b := ∃ _, _) ht) h
  have hgo : executeAt false tryText 0x500000 (oneState.over twoMem) = .next 0x500002
      { oneState.set .rsp 0x6ff8 with mem := twoMem.write64 0x6ff8 5 } := by
    rw [executeAt, show decode (window tryText 0x500000) = some (.plain (.push .r10), 2) by decide +kernel]
    rfl
  have hu : ByteUndefined tryProg.snip false tryText := nofun
  refine ⟨_, _, _, _, _, r4.step (C119_spares hs hfit hu r4 (i := 0) rfl (by
    simp only [Inside]; decide) hgo fun j w hj hw y hn hf => ?_), rfl, by decide⟩
  by_cases h' : j = 1
  · subst h'
    cases hw
    rcases hn with hn | ⟨b, hb, hn⟩
    · exact two_apart' hn hf
    · rw [List.mem_singleton.mp hb] at hn
      exact (two_apart hf).2.1 hn
  · simp [setAt, hj, h'] at hw

end Verif
