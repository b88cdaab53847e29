import Verif.Props.SignalThreads

/-!
C99: signal handlers.  The snippets are not atomic, and handlers are instrumented functions which run on
the same shadow region.  An honest thread is not killed, whatever is interrupted by what, as long as no
handler with snippets runs between the two instructions of a push which store the address and move the
pointer; see `SignalExamples` for what happens otherwise.
-/

namespace Verif

/-- C99: an honest thread with honest handlers, nested to any depth, is not killed. -/
theorem C99_no_false_alarm_partial {own : W → Prop} (hown : ∀ v, own v → ¬ GuardLike v) {g : W} {n : Nat}
    {s0 : State} (h : Recorded g [] s0) :
    ¬ SigRun (Handled BeforePointer own g n) BeforePointer own g (.run s0 [] none) .killed :=
  fun hr => (Conf.Over.start h).run (handled_calm ⟨fun _ h => h, hown⟩ g n) ⟨fun _ h => h, hown⟩ hr

/-- C99: at any moment outside of the snippets the pending return addresses are recorded, in order, and all
which is recorded are addresses of the thread's and the handlers' own calls. -/
theorem C99_recorded_partial {own : W → Prop} (hown : ∀ v, own v → ¬ GuardLike v) {g : W} {n : Nat}
    {s0 s : State} {p : List W} {leaf : Option (Reg × W)} (h : Recorded g [] s0)
    (hr : SigRun (Handled BeforePointer own g n) BeforePointer own g (.run s0 [] none) (.run s p leaf)) :
    ∃ l, Recorded g l s ∧ List.Sublist p l ∧ ∀ v ∈ l, own v := by
  obtain ⟨⟨top, h1, h2, h3⟩, _⟩ :=
    (Conf.Over.start h).run (handled_calm ⟨fun _ h => h, hown⟩ g n) ⟨fun _ h => h, hown⟩ hr
  exact ⟨top, by simpa using h1, h2, h3⟩

/-- C99: an interrupted push changes no register but the free ones, and no flag. -/
theorem C99_push_transparent_partial {own : W → Prop} (hown : ∀ v, own v → ¬ GuardLike v) {g : W} {n m : Nat}
    {l : List W} {s t : State} {code : Code} {d : Int} {free : Reg → Prop} (h : Recorded g l s)
    (hc : IsPush code d m free) (ha : Apart g (s.retAddr d) m s)
    (hr : Interrupted (At ((Handled BeforePointer own g n).back (Relies (s.retAddr d) (s.regs .rsp) m))
      BeforePointer g) (RoomFor g) code code s [] t) :
    (∀ r, ¬ free r → t.regs r = s.regs r) ∧ t.flags = s.flags ∧
      ∃ T A, (∀ v ∈ T ++ A, own v) ∧ Recorded g (T ++ s.mem.read64 (s.retAddr d) :: (A ++ l)) t := by
  have hO : OwnOk BeforePointer own := ⟨fun _ h => h, hown⟩
  have H := handled_calm hO g n
  obtain ⟨_, c, _⟩ := hc.interrupted h ha (honest := False)
    ⟨(H.push hO _).same, (H.push hO _).adds, fun h => h.elim, (H.push hO _).window⟩ (fun h => h.elim) hr
  obtain ⟨c1, c2, T, hT, A, hA, hrec⟩ := c rfl
  refine ⟨c1, c2, T, A, fun v hv => ?_, hrec⟩
  rcases List.mem_append.1 hv with hv | hv
  · exact hT v hv
  · exact hA v hv

/-- C99: an interrupted check of any return address changes no register but the free ones; if it lets the
address pass, then the address is recorded, or it is one of the handlers' own, or null.  No handler with
snippets runs while the pointer is at the guard. -/
theorem C99_check_partial {own : W → Prop} (hown : ∀ v, own v → ¬ GuardLike v) {g : W} {n m : Nat}
    {l : List W} {s t : State} {code : Code} {d : Int} {free : Reg → Prop} (h : Recorded g l s)
    (hc : IsCheck code d m free) (ha : Apart g (s.retAddr d) m s)
    (hr : Interrupted (fun _ a b => (Handled BeforePointer own g n).back (Relies (s.retAddr d) (s.regs .rsp) m) a b ∧
      (a.mem.read64 g = g + BitVec.ofNat 64 24 → Quiet g a b)) (fun _ _ => True) code code s [] t) :
    (∀ r, ¬ free r → t.regs r = s.regs r) ∧
      (s.mem.read64 (s.retAddr d) = 0 ∨ s.mem.read64 (s.retAddr d) ∈ l ∨ own (s.mem.read64 (s.retAddr d))) := by
  have hO : OwnOk BeforePointer own := ⟨fun _ h => h, hown⟩
  have H := handled_calm hO g n
  obtain ⟨_, c, _⟩ := hc.interrupted h ha (own := own) (Rem := fun L => ∀ v ∈ L, v ∈ l ∨ own v)
    (honest := False) ⟨fun h => H.same h.1, fun h => H.adds h.1, fun h => h.elim, fun _ h => h.2⟩
    ⟨fun h _ v hv => h v (List.mem_cons_of_mem _ hv), fun h => h.elim, fun h => h.elim⟩
    (fun T hT v hv => by
      rcases List.mem_append.1 hv with hv | hv
      · exact Or.inr (hT v hv)
      · exact Or.inl hv) hr
  obtain ⟨c1, c2, _⟩ := c rfl
  refine ⟨c1, ?_⟩
  rcases c2 with ⟨h, _⟩ | ⟨L, hL, _⟩
  · exact Or.inl h
  · exact Or.inr (hL _ (List.mem_cons_self ..))

/-- C99: a register-frame function gives its caller the frame register back, if the handlers leave the
word alone in which it is saved. -/
theorem C99_register_partial {own : W → Prop} (hown : ∀ v, own v → ¬ GuardLike v) {g : W} {n : Nat}
    {l l' : List W} {s t s' t' : State} {code code' : Code} {reg : Reg} {d : Int} (h : Recorded g l s)
    (hc : IsRegPush code reg d) (ha : Sep (s.retAddr d) 8 g regionSize)
    (hr : Interrupted (fun _ a b => (Handled BeforePointer own g n).back (Relies (s.retAddr d) (s.regs .rsp) 0) a b ∧
      b.mem.read64 (g + 8) = a.mem.read64 (g + 8)) (fun _ _ => True) code code s [] t)
    (h' : Recorded g l' s') (hc' : IsRegPop code' reg) (hret : s'.mem.read64 (s'.regs .rsp) = s'.regs reg)
    (hword : s'.mem.read64 (g + 8) = t.mem.read64 (g + 8))
    (hr' : Interrupted (fun _ a b => (Handled BeforePointer own g n).back (Relies (s'.regs .rsp) (s'.regs .rsp) 0) a b ∧
      b.mem.read64 (g + 8) = a.mem.read64 (g + 8)) (fun _ _ => True) code' code' s' [] t') :
    t'.regs reg = s.regs reg ∧ ∀ r, r ≠ reg → t'.regs r = s'.regs r := by
  have hO : OwnOk BeforePointer own := ⟨fun _ h => h, hown⟩
  have H := handled_calm hO g n
  obtain ⟨_, c, _⟩ := hc.interrupted h ha (own := own) (honest := False) (scratch := True)
    ⟨fun h => H.same h.1, fun h => H.adds h.1, fun h => h.elim, fun _ h => h.2⟩ hr
  obtain ⟨_, c', _⟩ := hc'.interrupted h' hret (own := own) (honest := False) (scratch := True)
    ⟨fun h => H.same h.1, fun h => H.adds h.1, fun h => h.elim, fun _ h => h.2⟩ hr'
  obtain ⟨d1, _, d3⟩ := c' rfl
  exact ⟨((d3 trivial).trans hword).trans ((c rfl).2.2.2.2 trivial), d1⟩

end Verif
