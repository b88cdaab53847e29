import Verif.Emitted

/-!
# Executions of one protected thread (specification of C06 and C16)

A thread alternates between its own work, which leaves its shadow region alone, and
inserted snippets.  `pending` lists the return addresses of the protected calls in
progress, innermost first; it is what the program means, not what is recorded.  `leaf`
is the frame register and the return address of a register-frame function in progress.
Unwinding (longjmp, exceptions, thread cancellation) abandons calls without running
their checks.
-/

namespace Verif

/-- A thread in execution, or killed by SIGILL. -/
inductive Conf where
  | run (s : State) (pending : List W) (leaf : Option (Reg × W))
  | killed

/-- Address of the return address for a snippet with displacement `d`. -/
def State.retAddr (s : State) (d : Int) : W := s.regs .rsp + BitVec.ofInt 64 d

/-- The thread's shadow region has room for one more entry. -/
def HasRoom (g : W) (s : State) : Prop := (s.shadow - g).toNat + 8 ≤ regionSize

/-- One step of an honest thread whose region is at `g`. -/
inductive HonestStep (g : W) : Conf → Conf → Prop
  /-- the program's own instructions -/
  | work {s s' p leaf} : s'.gs = s.gs → (∀ x, InRange x g regionSize → s'.mem x = s.mem x) →
      (∀ r v, leaf = some (r, v) → s'.regs r = s.regs r) →
      HonestStep g (.run s p leaf) (.run s' p leaf)
  /-- entry of a protected function -/
  | call {s s' p code d n free} : IsPush code d n free → Apart g (s.retAddr d) n s →
      HasRoom g s → ¬ GuardLike (s.mem.read64 (s.retAddr d)) → Exits code s s' →
      HonestStep g (.run s p none) (.run s' (s.mem.read64 (s.retAddr d) :: p) none)
  | callTrap {s p code d n free} : IsPush code d n free → Apart g (s.retAddr d) n s →
      HasRoom g s → Traps code s → HonestStep g (.run s p none) .killed
  /-- return of a protected function to the address it was called from -/
  | ret {s s' ra p code d n free} : IsCheck code d n free → Apart g (s.retAddr d) n s →
      s.mem.read64 (s.retAddr d) = ra → Exits code s s' →
      HonestStep g (.run s (ra :: p) none) (.run s' p none)
  | retTrap {s ra p code d n free} : IsCheck code d n free → Apart g (s.retAddr d) n s →
      s.mem.read64 (s.retAddr d) = ra → Traps code s → HonestStep g (.run s (ra :: p) none) .killed
  /-- entry and return of a register-frame function -/
  | enter {s s' p code reg d} : IsRegPush code reg d → Sep (s.retAddr d) 8 g regionSize →
      Exits code s s' →
      HonestStep g (.run s p none) (.run s' p (some (reg, s.mem.read64 (s.retAddr d))))
  | enterTrap {s p code reg d} : IsRegPush code reg d → Sep (s.retAddr d) 8 g regionSize →
      Traps code s → HonestStep g (.run s p none) .killed
  | leave {s s' p code reg ra} : IsRegPop code reg → s.mem.read64 (s.regs .rsp) = ra →
      Exits code s s' → HonestStep g (.run s p (some (reg, ra))) (.run s' p none)
  | leaveTrap {s p code reg ra} : IsRegPop code reg → s.mem.read64 (s.regs .rsp) = ra →
      Traps code s → HonestStep g (.run s p (some (reg, ra))) .killed
  /-- any number of calls is abandoned -/
  | unwind {s p leaf} (k : Nat) : HonestStep g (.run s p leaf) (.run s (p.drop k) none)

/-- Executions of any length. -/
inductive HonestRun (g : W) : Conf → Conf → Prop
  | refl {c} : HonestRun g c c
  | step {a b c} : HonestRun g a b → HonestStep g b c → HonestRun g a c

/-- Invariant: the pending return addresses are recorded in order. -/
def Conf.Good (g : W) : Conf → Prop
  | .run s p leaf => (∃ l, Recorded g l s ∧ List.Sublist p l ∧ ∀ v, v ∈ l → ¬ GuardLike v) ∧
      ∀ r v, leaf = some (r, v) → s.regs r = v
  | .killed => False

theorem sublist_of_found {α : Type} {ra : α} {p pre post : List α}
    (h : List.Sublist (ra :: p) (pre ++ ra :: post)) (hn : ra ∉ pre) : List.Sublist p post := by
  induction pre with
  | nil => exact (List.cons_sublist_cons).1 h
  | cons x pre ih =>
    simp only [List.mem_cons, not_or] at hn
    cases h with
    | cons _ h => exact ih h hn.2
    | cons_cons _ h => exact absurd rfl hn.1

/-- An honest return finds its address. -/
theorem honest_check {g : W} {s : State} {ra : W} {p l : List W} {code : Code} {d : Int} {n : Nat}
    {free : Reg → Prop} (hr : Recorded g l s) (hp : List.Sublist (ra :: p) l)
    (hg : ∀ v, v ∈ l → ¬ GuardLike v) (hc : IsCheck code d n free)
    (ha : Apart g (s.retAddr d) n s) (he : s.mem.read64 (s.retAddr d) = ra) :
    ∃ s' post, Exits code s s' ∧ Recorded g post s' ∧ List.Sublist p post ∧
      ∀ v, v ∈ post → ¬ GuardLike v := by
  have hmem : ra ∈ l := hp.subset (List.mem_cons_self ..)
  obtain ⟨pre, post, e, hpre⟩ := List.eq_append_cons_of_mem hmem
  have hs := hc.run hr.holds (hr.checkSep ha)
  have : scan (s.mem.read64 (s.regs .rsp + BitVec.ofInt 64 d)) l = some pre.length := by
    rw [show s.mem.read64 (s.regs .rsp + BitVec.ofInt 64 d) = ra from he, e]
    exact scan_found hpre fun v hv => hg v (by rw [e]; exact List.mem_append_left _ hv)
  rw [this] at hs
  obtain ⟨s', h1, h2⟩ := hs
  have hd : l.drop (pre.length + 1) = post := by rw [e]; simp
  refine ⟨s', post, h1, ?_, ?_, ?_⟩
  · rw [← hd]; exact hr.check ha (by rw [e]; simp) h2
  · rw [e] at hp; exact sublist_of_found hp hpre
  · intro v hv; exact hg v (by rw [e]; simp [hv])

theorem Recorded.hasRoom {g : W} {l : List W} {s : State} (h : Recorded g l s) :
    HasRoom g s ↔ 32 + 8 * l.length + 8 ≤ regionSize := by
  have := h.room
  have hr : regionSize = 8388608 := rfl
  rw [HasRoom, h.pointer, off_toNat (by omega)]

/-- A register push leaves the recorded addresses alone. -/
theorem Recorded.regPushed {g : W} {l : List W} {s : State} (h : Recorded g l s) (reg : Reg)
    (d : Int) : Recorded g l (regPushed reg d s) := by
  refine h.keep (s' := Verif.regPushed reg d s) rfl fun x hx => ?_
  show s.mem.write64 (s.gs + 8) _ x = _
  rw [h.gs]
  refine write64_outRange _ _ _ _ ?_
  rcases hx with hx | hx
  · have := sep_offsets g (a := 0) (n := 8) (b := 8) (m := 8) (by decide) (by decide)
      (Or.inl (by decide)) (by decide) (by decide)
    rw [gs_zero] at this
    exact sep_not_inRange this hx
  · exact sep_not_inRange (sep_offsets g (a := 16) (n := regionSize - 16) (b := 8) (m := 8)
      (by decide) (by decide) (Or.inr (by decide)) (by decide) (by decide)) hx

theorem Apart.enter {g : W} {s : State} {d : Int} (hg : s.gs = g)
    (h : Sep (s.retAddr d) 8 g regionSize) : Sep (s.retAddr d) 8 (s.gs + 8) 8 := by
  rw [hg]; exact (sep_in (a := 8) h (by decide)).symm

theorem Conf.Good.step {g : W} {c c' : Conf} (hc : c.Good g) (hs : HonestStep g c c') :
    c'.Good g := by
  cases hs with
  | work hgs hm hl =>
    obtain ⟨⟨l, h1, h2, h3⟩, hleaf⟩ := hc
    refine ⟨⟨l, h1.keep hgs fun x hx => hm x ?_, h2, h3⟩, fun r v e => ?_⟩
    · rcases hx with hx | hx
      · exact inRange_sub hx (by rw [BitVec.sub_self]; decide)
      · refine inRange_sub hx ?_
        have : g + 16 - g = 16#64 := by bv_omega
        rw [this]; decide
    · rw [hl r v e]; exact hleaf r v e
  | call hp ha hroom hng hx =>
    obtain ⟨⟨l, h1, h2, h3⟩, _⟩ := hc
    rw [h1.hasRoom] at hroom
    obtain ⟨s'', hx', hp'⟩ := hp.run (h1.pushSep ha hroom)
    obtain rfl := hx.det hx'
    refine ⟨⟨_, h1.push ha hroom hp', h2.cons_cons _, ?_⟩, by simp⟩
    intro v hv
    rcases List.mem_cons.1 hv with rfl | hv
    · exact hng
    · exact h3 v hv
  | callTrap hp ha hroom hx =>
    obtain ⟨⟨l, h1, h2, h3⟩, _⟩ := hc
    rw [h1.hasRoom] at hroom
    obtain ⟨s'', hx', hp'⟩ := hp.run (h1.pushSep ha hroom)
    exact hx'.not_traps hx
  | ret hk ha he hx =>
    obtain ⟨⟨l, h1, h2, h3⟩, _⟩ := hc
    obtain ⟨s'', post, hx', h1', h2', h3'⟩ := honest_check h1 h2 h3 hk ha he
    obtain rfl := hx.det hx'
    exact ⟨⟨post, h1', h2', h3'⟩, by simp⟩
  | retTrap hk ha he hx =>
    obtain ⟨⟨l, h1, h2, h3⟩, _⟩ := hc
    obtain ⟨s'', post, hx', _⟩ := honest_check h1 h2 h3 hk ha he
    exact hx'.not_traps hx
  | enter hp ha hx =>
    obtain ⟨⟨l, h1, h2, h3⟩, _⟩ := hc
    obtain rfl := hx.det (hp.run (Apart.enter h1.gs ha))
    refine ⟨⟨l, h1.regPushed _ _, h2, h3⟩, ?_⟩
    intro r v e
    simp only [Option.some.injEq, Prod.mk.injEq] at e
    obtain ⟨rfl, rfl⟩ := e
    simp [regPushed, State.set, State.retAddr]
  | enterTrap hp ha hx =>
    obtain ⟨⟨l, h1, h2, h3⟩, _⟩ := hc
    exact (hp.run (Apart.enter h1.gs ha)).not_traps hx
  | leave hp he hx =>
    obtain ⟨⟨l, h1, h2, h3⟩, hleaf⟩ := hc
    have e := hleaf _ _ rfl
    obtain rfl := hx.det (hp.run (he.trans e.symm))
    refine ⟨⟨l, h1.keep rfl fun _ _ => rfl, h2, h3⟩, by simp⟩
  | leaveTrap hp he hx =>
    obtain ⟨_, hleaf⟩ := hc
    have e := hleaf _ _ rfl
    exact (hp.run (he.trans e.symm)).not_traps hx
  | unwind k =>
    obtain ⟨⟨l, h1, h2, h3⟩, _⟩ := hc
    exact ⟨⟨l, h1, (List.drop_sublist k _).trans h2, h3⟩, by simp⟩

theorem Conf.Good.run {g : W} {c c' : Conf} (hc : c.Good g) (hs : HonestRun g c c') :
    c'.Good g := by
  induction hs with
  | refl => exact hc
  | step _ h ih => exact ih.step h

end Verif
