import Verif.Family
import Verif.Props.Honest

/-!
C112: no false alarms in children of `fork` and `vfork`, nor in their parents.
C113: flows of control which share a shadow stack.
-/

namespace Verif

variable {ι : Type} [DecidableEq ι] {κ : Type} [DecidableEq κ]

/-! ## C112 -/

/-- The processes waiting in an address space are in order. -/
def WaitOk (g : W) : List W → List (Cpu × List W) → Prop
  | _, [] => True
  | p, (c, q) :: w => q <:+ p ∧ c.gs = g ∧ WaitOk g q w

/-- The invariant of an address space. -/
structure AddrSpace.Good (g : W) (a : AddrSpace) : Prop where
  conf : a.conf.Good g
  waiting : ∀ s p leaf, a.conf = .run s p leaf → WaitOk g p a.waiting

theorem WaitOk.suffix {g : W} {p p' : List W} {w : List (Cpu × List W)} (h : WaitOk g p w)
    (hs : ∀ q ∈ w.head?, q.2 <:+ p') : WaitOk g p' w := by
  cases w with
  | nil => trivial
  | cons x w => exact ⟨hs x rfl, h.2⟩

/-- Other registers; the shadow stack is the same. -/
theorem Conf.Good.regs {g : W} {s s' : State} {p p' : List W} {leaf : Option (Reg × W)}
    (h : (Conf.run s p leaf).Good g) (hg : s'.gs = g) (hm : s'.mem = s.mem) (hp : List.Sublist p' p) :
    (Conf.run s' p' none).Good g := by
  obtain ⟨⟨l, h1, h2, h3⟩, _⟩ := h
  refine ⟨⟨l, h1.keep (hg.trans h1.gs.symm) fun x _ => by rw [hm], hp.trans h2, h3⟩, ?_⟩
  intro r v e
  cases e

theorem Conf.Good.gs {g : W} {s : State} {p : List W} {leaf : Option (Reg × W)}
    (h : (Conf.run s p leaf).Good g) : s.gs = g := by
  obtain ⟨⟨l, h1, _⟩, _⟩ := h
  exact h1.gs

theorem AddrSpace.Good.step {g : W} {a a' : AddrSpace} (h : a.Good g) (hs : SpaceStep Posix g a a') : a'.Good g := by
  cases hs with
  | @act c c' w h1 h2 =>
    refine ⟨h.conf.step h1, fun s p leaf e => ?_⟩
    have hc : ∃ s0 p0 leaf0, c = .run s0 p0 leaf0 := by
      cases h1 <;> exact ⟨_, _, _, rfl⟩
    obtain ⟨s0, p0, leaf0, rfl⟩ := hc
    exact (h.waiting _ _ _ rfl).suffix fun q hq => h2 s p leaf q e hq
  | vfork regs flags =>
    refine ⟨h.conf.regs h.conf.gs rfl (List.Sublist.refl _), fun s p leaf e => ?_⟩
    cases e
    exact ⟨List.suffix_rfl, h.conf.gs, h.waiting _ _ _ rfl⟩
  | resume regs flags =>
    obtain ⟨k1, k2, k3⟩ := h.waiting _ _ _ rfl
    refine ⟨h.conf.regs k2 rfl k1.sublist, fun s p leaf e => ?_⟩
    cases e
    exact k3

/-- The invariant of a family. -/
def FamilyGood (g : W) (F : ι → Option AddrSpace) : Prop := ∀ i a, F i = some a → a.Good g

theorem FamilyGood.step {g : W} {F F' : ι → Option AddrSpace} (h : FamilyGood g F)
    (hs : FamilyStep Posix g F F') : FamilyGood g F' := by
  intro j b hb
  cases hs with
  | act h1 h2 =>
    dsimp only at hb
    split at hb
    · cases hb; exact (h _ _ h1).step h2
    · exact h _ _ hb
  | fork regs flags h1 h2 h3 =>
    dsimp only at hb
    split at hb
    · cases hb
      obtain ⟨⟨l, k1, k2, k3⟩, k4⟩ := (h _ _ h1).conf
      refine ⟨⟨⟨l, k1.keep rfl fun x _ => rfl, k2, k3⟩, fun r v e => ?_⟩, fun _ _ _ _ => trivial⟩
      exact (h3 r v e).trans (k4 r v e)
    · exact h _ _ hb
  | gone =>
    dsimp only at hb
    split at hb
    · cases hb
    · exact h _ _ hb

theorem FamilyGood.run {g : W} {F F' : ι → Option AddrSpace} (h : FamilyGood g F)
    (hr : FamilyRun Posix g F F') : FamilyGood g F' := by
  induction hr with
  | refl => exact h
  | step _ h2 ih => exact ih.step h2

theorem FamilyGood.one {g : W} {s : State} (h : Recorded g [] s) (i : ι) : FamilyGood g (oneProcess i s) := by
  intro j a ha
  unfold oneProcess at ha
  split at ha
  · cases ha
    exact ⟨⟨⟨[], h, List.Sublist.slnil, by simp⟩, by simp⟩, fun _ _ _ _ => trivial⟩
  · cases ha

/-- **C112.** Start with one process whose shadow stack is initialised.  However many processes it and
its children create with `fork` and `vfork`, and whatever calls, returns and jumps they make, none is
killed by a check, if children of `vfork` do not return from the function which called it. -/
theorem C112_no_false_alarm {g : W} {s : State} (h : Recorded g [] s) (i : ι) {F : ι → Option AddrSpace}
    (hr : FamilyRun Posix g (oneProcess i s) F) {j : ι} {a : AddrSpace} (ha : F j = some a) : a.conf ≠ .killed := by
  intro e
  have := (((FamilyGood.one h i).run hr) j a ha).conf
  rw [e] at this
  exact this

/-- **C112, progress.** In every process of the family the check of a return passes. -/
theorem C112_return_passes {g : W} {s : State} (h : Recorded g [] s) (i : ι) {F : ι → Option AddrSpace}
    (hr : FamilyRun Posix g (oneProcess i s) F) {j : ι} {s1 : State} {ra : W} {p : List W}
    {w : List (Cpu × List W)} (hj : F j = some ⟨.run s1 (ra :: p) none, w⟩) {code : Code} {d : Int} {n : Nat}
    {free : Reg → Prop} (hc : IsCheck code d n free) (ha : Apart g (s1.retAddr d) n s1)
    (he : s1.mem.read64 (s1.retAddr d) = ra) :
    ∃ s2, Exits code s1 s2 ∧ HonestStep g (.run s1 (ra :: p) none) (.run s2 p none) := by
  obtain ⟨⟨l, h1, h2, h3⟩, _⟩ := (((FamilyGood.one h i).run hr) j _ hj).conf
  obtain ⟨s2, _, hx, _⟩ := honest_check h1 h2 h3 hc ha he
  exact ⟨s2, hx, .ret hc ha he hx⟩

/-- **C112, detection.** In every process of the family a check stops an address which is not recorded:
not that of any call in progress, nor of one which was abandoned since. -/
theorem C112_detects {g : W} {s : State} (h : Recorded g [] s) (i : ι) {F : ι → Option AddrSpace}
    (hr : FamilyRun Posix g (oneProcess i s) F) {j : ι} {s1 : State} {p : List W}
    {leaf : Option (Reg × W)} {w : List (Cpu × List W)} (hj : F j = some ⟨.run s1 p leaf, w⟩) :
    ∃ l, Recorded g l s1 ∧ ∀ {code : Code} {d : Int} {n : Nat} {free : Reg → Prop}, IsCheck code d n free →
      Apart g (s1.retAddr d) n s1 → s1.mem.read64 (s1.retAddr d) ≠ 0 →
      s1.mem.read64 (s1.retAddr d) ∉ l → Traps code s1 := by
  obtain ⟨⟨l, h1, h2, h3⟩, _⟩ := (((FamilyGood.one h i).run hr) j _ hj).conf
  refine ⟨l, h1, fun hc ha h0 hn => ?_⟩
  have := hc.run h1.holds (h1.checkSep ha)
  rw [show scan (s1.mem.read64 (s1.regs .rsp + BitVec.ofInt 64 _)) l = none from scan_missing h0 hn] at this
  exact this

/-! ### Steps for examples -/

/-- The state in which a function which was called from `v` begins or ends, on the stack at `sp`. -/
def atCall (s : State) (sp v : W) : State :=
  ⟨fun r => if r = .rsp then sp else 0, 0, s.gs, s.mem.write64 sp v⟩

/-- The two stacks of the examples. -/
def demoStack (sp : W) : Prop := sp = 0x7000 ∨ sp = 0x6000

theorem demoStack.apart {sp : W} (h : demoStack sp) {s : State} (hs : s.regs .rsp = sp) :
    Apart 0x100000 (s.retAddr 0) 16 s := by
  rcases h with rfl | rfl
  · exact sample_apart s hs
  · exact { ret := by rw [State.retAddr, hs]; exact sep_of_le (by decide) (by decide) (by decide)
            save := by rw [hs]; exact sep_of_le (by decide) (by decide) (by decide)
            ret_save := by rw [State.retAddr, hs]; exact sep_of_le (by decide) (by decide) (by decide) }

theorem atCall_ret (s : State) (sp v : W) : (atCall s sp v).mem.read64 ((atCall s sp v).retAddr 0) = v := by
  have : (atCall s sp v).retAddr 0 = sp := by simp [State.retAddr, atCall]
  rw [this]
  exact read64_write64 _ _ _

theorem atCall_region {sp : W} (h : demoStack sp) (s : State) (v x : W) (hx : InRange x 0x100000 regionSize) :
    (atCall s sp v).mem x = s.mem x := by
  refine write64_outRange _ _ _ _ (sep_not_inRange ?_ hx)
  rcases h with rfl | rfl
  · exact sep_of_le (by decide) (by decide) (by decide)
  · exact sep_of_le (by decide) (by decide) (by decide)

theorem atCall_recorded {sp : W} (h : demoStack sp) {s : State} {l : List W} (hr : Recorded 0x100000 l s) (v : W) :
    Recorded 0x100000 l (atCall s sp v) := by
  refine hr.keep rfl fun x hx => atCall_region h s v x ?_
  rcases hx with hx | hx
  · exact inRange_sub hx (by rw [BitVec.sub_self]; decide)
  · exact inRange_sub hx (by decide)

theorem atCall_work {sp : W} (h : demoStack sp) (s : State) (v : W) (p : List W) :
    HonestStep 0x100000 (.run s p none) (.run (atCall s sp v) p none) :=
  .work rfl (fun x hx => atCall_region h s v x hx) nofun

/-- A protected function is called from `v`. -/
theorem demo_call {sp : W} (h : demoStack sp) {s : State} {l p : List W} (hr : Recorded 0x100000 l s) (v : W)
    (hl : l.length < 1000) (hg : ¬ GuardLike v) :
    ∃ s1 s2, HonestStep 0x100000 (.run s p none) (.run s1 p none) ∧
      HonestStep 0x100000 (.run s1 p none) (.run s2 (v :: p) none) ∧ Recorded 0x100000 (v :: l) s2 := by
  obtain ⟨code, free, hp⟩ := default_isPush
  have hroom : 32 + 8 * l.length + 8 ≤ regionSize := by
    have : regionSize = 8388608 := rfl
    omega
  obtain ⟨s2, k1, k2, _, _⟩ := call_again (p := p) hp (atCall_recorded h hr v) (h.apart rfl) hroom
    (by rw [atCall_ret]; exact hg)
  rw [atCall_ret] at k1 k2
  exact ⟨_, s2, atCall_work h s v p, k1, k2⟩

/-- It returns to `v`, which is recorded. -/
theorem demo_ret {sp : W} (h : demoStack sp) {s : State} {pre post p : List W} {v : W}
    (hr : Recorded 0x100000 (pre ++ v :: post) s) (hn : v ∉ pre) (hg : ∀ u ∈ pre, ¬ GuardLike u) :
    ∃ s1 s2, HonestStep 0x100000 (.run s (v :: p) none) (.run s1 (v :: p) none) ∧
      HonestStep 0x100000 (.run s1 (v :: p) none) (.run s2 p none) ∧ Recorded 0x100000 post s2 := by
  obtain ⟨code, free, hc⟩ := default_isCheck
  have hr' := atCall_recorded h hr v
  have hap : Apart 0x100000 ((atCall s sp v).retAddr 0) 16 (atCall s sp v) := h.apart rfl
  have hs := hc.run hr'.holds (hr'.checkSep hap)
  rw [show scan ((atCall s sp v).mem.read64 ((atCall s sp v).regs .rsp + BitVec.ofInt 64 0)) (pre ++ v :: post) =
    some pre.length by
      rw [show (atCall s sp v).mem.read64 ((atCall s sp v).regs .rsp + BitVec.ofInt 64 0) = v from atCall_ret s sp v]
      exact scan_found hn hg] at hs
  obtain ⟨s2, h1, h2⟩ := hs
  refine ⟨_, s2, atCall_work h s v _, .ret hc hap (atCall_ret s sp v) h1, ?_⟩
  have := hr'.check hap (by simp) h2
  simpa using this

/-- It returns to `v`, which is not recorded. -/
theorem demo_killed {sp : W} (h : demoStack sp) {s : State} {l p : List W} {v : W}
    (hr : Recorded 0x100000 l s) (hn : v ∉ l) (h0 : v ≠ 0) :
    ∃ s1, HonestStep 0x100000 (.run s (v :: p) none) (.run s1 (v :: p) none) ∧
      HonestStep 0x100000 (.run s1 (v :: p) none) .killed := by
  obtain ⟨code, free, hc⟩ := default_isCheck
  have hr' := atCall_recorded h hr v
  have hap : Apart 0x100000 ((atCall s sp v).retAddr 0) 16 (atCall s sp v) := h.apart rfl
  have hs := hc.run hr'.holds (hr'.checkSep hap)
  rw [show scan ((atCall s sp v).mem.read64 ((atCall s sp v).regs .rsp + BitVec.ofInt 64 0)) l = none by
      rw [show (atCall s sp v).mem.read64 ((atCall s sp v).regs .rsp + BitVec.ofInt 64 0) = v from atCall_ret s sp v]
      exact scan_missing h0 hn] at hs
  exact ⟨_, atCall_work h s v _, .retTrap hc hap (atCall_ret s sp v) hs⟩

/-! ### Example -/

theorem family_act {stays : List W → List W → Prop} {g : W} {F0 F : ι → Option AddrSpace} {i : ι} {a a' : AddrSpace}
    (hr : FamilyRun stays g F0 F) (hi : F i = some a) (hs : SpaceStep stays g a a') :
    ∃ F', FamilyRun stays g F0 F' ∧ F' i = some a' ∧ ∀ j, j ≠ i → F' j = F j :=
  ⟨_, hr.step (.act hi hs), by simp, fun j hj => by simp [hj]⟩

theorem posix_nil {c' : Conf} : ∀ s p leaf (q : Cpu × List W), c' = .run s p leaf → q ∈ ([] : List (Cpu × List W)).head? →
    Posix q.2 p := by
  intro _ _ _ _ _ h; cases h

/-- Example for C112: a process calls a function, which calls `fork` and then `vfork`; the last child
calls another function, from which it does not return; the parent returns.  Three processes take part. -/
theorem C112_example : ∃ (F F' : Bool → Option AddrSpace) (s1 s2 s3 : State) (c : Cpu),
    FamilyRun Posix 0x100000 (oneProcess false (sampleState 0x401000 [])) F' ∧
    F' false = some ⟨.run s3 [0x402000, 0x401000] none, [(c, [0x401000])]⟩ ∧
    FamilyRun Posix 0x100000 (oneProcess false (sampleState 0x401000 [])) F ∧
    F false = some ⟨.run s1 [] none, []⟩ ∧ F true = some ⟨.run s2 [0x401000] none, []⟩ ∧
    Recorded 0x100000 [] s1 ∧ Recorded 0x100000 [0x401000] s2 ∧ Recorded 0x100000 [0x402000, 0x401000] s3 := by
  obtain ⟨a1, a2, k1, k2, r2⟩ := demo_call (p := []) (.inl rfl : demoStack 0x7000) sample_recorded 0x401000 (by decide) (by decide)
  obtain ⟨F1, f1, e1, o1⟩ := family_act (.refl (F := oneProcess false (sampleState 0x401000 [])) (stays := Posix) (g := 0x100000))
    (i := false) rfl (.act k1 posix_nil)
  obtain ⟨F2, f2, e2, o2⟩ := family_act f1 e1 (.act k2 posix_nil)
  have et : F2 true = none := by rw [o2 true (by simp), o1 true (by simp)]; rfl
  have f3 := f2.step (.fork (k := true) a2.regs a2.flags e2 et nofun)
  obtain ⟨F4, f4, e4, o4⟩ := family_act f3 (i := false) (by simpa using e2) (.vfork a2.regs a2.flags)
  obtain ⟨b1, b2, l1, l2, q2⟩ := demo_call (p := [0x401000]) (.inr rfl : demoStack 0x6000) r2 0x402000 (by decide) (by decide)
  obtain ⟨F5, f5, e5, o5⟩ := family_act f4 e4 (.act l1 (by
    intro s p leaf q h hq; cases h; cases hq; exact List.suffix_rfl))
  obtain ⟨F6, f6, e6, o6⟩ := family_act f5 e5 (.act l2 (by
    intro s p leaf q h hq; cases h; cases hq; exact List.suffix_cons ..))
  obtain ⟨F7, f7, e7, o7⟩ := family_act f6 e6 (.resume a2.regs a2.flags)
  have rs : Recorded 0x100000 ([0x402000] ++ 0x401000 :: []) ⟨a2.regs, a2.flags, a2.cpu.gs, b2.mem⟩ :=
    q2.keep (r2.gs.trans q2.gs.symm) fun x _ => rfl
  obtain ⟨c1, c2, m1, m2, z2⟩ := demo_ret (p := []) (pre := [0x402000]) (post := []) (v := 0x401000)
    (.inl rfl : demoStack 0x7000) rs (by simp) (by simp; decide)
  obtain ⟨F8, f8, e8, o8⟩ := family_act f7 e7 (.act m1 posix_nil)
  obtain ⟨F9, f9, e9, o9⟩ := family_act f8 e8 (.act m2 posix_nil)
  refine ⟨F9, F6, c2, ⟨a2.regs, a2.flags, a2.gs, a2.mem⟩, b2, _, f6, e6, f9, e9, ?_, z2, ?_, q2⟩
  · rw [o9 true (by simp), o8 true (by simp), o7 true (by simp), o6 true (by simp), o5 true (by simp),
      o4 true (by simp)]; rfl
  · exact r2.keep rfl fun x _ => rfl

/-- **The condition of C112 is needed**: if the child of `vfork` returns from the function which called
it, the parent is killed when it returns. -/
theorem C112_refuted_returning : ∃ (F : Bool → Option AddrSpace) (a : AddrSpace),
    FamilyRun (fun _ _ => True) 0x100000 (oneProcess false (sampleState 0x401000 [])) F ∧
    F false = some a ∧ a.conf = .killed := by
  obtain ⟨a1, a2, k1, k2, r2⟩ := demo_call (p := []) (.inl rfl : demoStack 0x7000) sample_recorded 0x401000 (by decide) (by decide)
  obtain ⟨F1, f1, e1, _⟩ := family_act (.refl (F := oneProcess false (sampleState 0x401000 []))
    (stays := fun _ _ => True) (g := 0x100000)) (i := false) rfl (.act k1 fun _ _ _ _ _ _ => trivial)
  obtain ⟨F2, f2, e2, _⟩ := family_act f1 e1 (.act k2 fun _ _ _ _ _ _ => trivial)
  obtain ⟨F3, f3, e3, _⟩ := family_act f2 e2 (.vfork a2.regs a2.flags)
  obtain ⟨b1, b2, l1, l2, q2⟩ := demo_ret (s := { a2 with regs := a2.regs, flags := a2.flags }) (p := []) (pre := []) (post := []) (v := 0x401000)
    (.inl rfl : demoStack 0x7000) r2 (by simp) (by simp)
  obtain ⟨F4, f4, e4, _⟩ := family_act f3 e3 (.act l1 fun _ _ _ _ _ _ => trivial)
  obtain ⟨F5, f5, e5, _⟩ := family_act f4 e4 (.act l2 fun _ _ _ _ _ _ => trivial)
  obtain ⟨F6, f6, e6, _⟩ := family_act f5 e5 (.resume a2.regs a2.flags)
  have rs : Recorded 0x100000 [] ⟨a2.regs, a2.flags, a2.cpu.gs, b2.mem⟩ :=
    q2.keep (r2.gs.trans q2.gs.symm) fun x _ => rfl
  obtain ⟨c1, m1, m2⟩ := demo_killed (v := 0x401000) (p := []) (.inl rfl : demoStack 0x7000) rs (by simp) (by decide)
  obtain ⟨F7, f7, e7, _⟩ := family_act f6 e6 (.act m1 fun _ _ _ _ _ _ => trivial)
  obtain ⟨F8, f8, e8, _⟩ := family_act f7 e7 (.act m2 fun _ _ _ _ _ _ => trivial)
  exact ⟨F8, _, f8, e8, rfl⟩

/-! ## C113 -/

/-- The invariant: flows which may be resumed have no calls in progress. -/
structure Flows.Good (g : W) (A : Flows κ) : Prop where
  conf : A.conf.Good g
  others : ∀ k c q, A.others k = some (c, q) → q = [] ∧ c.gs = g

theorem Flows.Good.step {g : W} {A B : Flows κ} (h : A.Good g) (hs : FlowStep (· = []) g A B) : B.Good g := by
  cases hs with
  | act h1 => exact ⟨h.conf.step h1, h.others⟩
  | make k regs flags h1 =>
    refine ⟨h.conf, fun j c q hj => ?_⟩
    dsimp only at hj
    split at hj
    · cases hj; exact ⟨rfl, h.conf.gs⟩
    · exact h.others j c q hj
  | switch k k' h1 h2 h3 =>
    obtain ⟨k1, k2⟩ := h.others k _ _ h1
    subst k1
    refine ⟨h.conf.regs k2 rfl (List.nil_sublist _), fun j c q hj => ?_⟩
    dsimp only at hj
    split at hj
    · rename_i hk
      cases hj
      exact ⟨h3 (by rw [hk]; nofun), h.conf.gs⟩
    · split at hj
      · cases hj
      · exact h.others j c q hj

/-- **C113, what holds.** Flows of control which share a shadow stack raise no false alarm if they are
left, unless for ever, only when no protected call is in progress.  Missing: other flows (see
`C113_refuted`). -/
theorem C113_no_false_alarm_partial {g : W} {s : State} (h : Recorded g [] s) {A : Flows κ}
    (hr : FlowRun (· = []) g ⟨.run s [] none, fun _ => none⟩ A) : A.conf ≠ .killed := by
  have key : A.Good g := by
    induction hr with
    | refl => exact ⟨⟨⟨[], h, List.Sublist.slnil, by simp⟩, by simp⟩, fun k c q hk => by cases hk⟩
    | step _ h2 ih => exact ih.step h2
  intro e
  have := key.conf
  rw [e] at this
  exact this

/-- **C113 is false**: two coroutines, the second of which passes control back while a call is in progress.
The first returns, which removes what the second has recorded; the second is killed when it returns. -/
theorem C113_refuted : ∃ A : Flows Bool,
    FlowRun (fun _ => True) 0x100000 ⟨.run (sampleState 0x401000 []) [] none, fun _ => none⟩ A ∧
    A.conf = .killed := by
  obtain ⟨a1, a2, k1, k2, r2⟩ := demo_call (p := []) (.inl rfl : demoStack 0x7000) sample_recorded 0x401000 (by decide) (by decide)
  have f2 : FlowRun (fun _ => True) 0x100000 ⟨.run (sampleState 0x401000 []) [] none, fun _ : Bool => none⟩ _ :=
    (FlowRun.refl.step (.act k1)).step (.act k2)
  have f4 := (f2.step (.make true (fun _ => 0) 0 rfl)).step
    (.switch true (some false) (c := ⟨fun _ => 0, 0, a2.gs⟩) (q := []) rfl (by simp) fun _ => trivial)
  have rs : Recorded 0x100000 [0x401000] ⟨fun _ => 0, 0, a2.gs, a2.mem⟩ := r2.keep rfl fun x _ => rfl
  obtain ⟨b1, b2, l1, l2, q2⟩ := demo_call (p := []) (.inr rfl : demoStack 0x6000) rs 0x402000 (by decide) (by decide)
  have f6 := (f4.step (.act l1)).step (.act l2)
  have f7 := f6.step (.switch false (some true) (c := a2.cpu) (q := [0x401000]) rfl (by simp) fun _ => trivial)
  have rt : Recorded 0x100000 ([0x402000] ++ 0x401000 :: []) ⟨a2.cpu.regs, a2.cpu.flags, a2.cpu.gs, b2.mem⟩ :=
    q2.keep (r2.gs.trans q2.gs.symm) fun x _ => rfl
  obtain ⟨c1, c2, m1, m2, z2⟩ := demo_ret (p := []) (pre := [0x402000]) (post := []) (v := 0x401000)
    (.inl rfl : demoStack 0x7000) rt (by simp) (by simp; decide)
  have f9 := (f7.step (.act m1)).step (.act m2)
  have f10 := f9.step (.switch true none (c := b2.cpu) (q := [0x402000]) rfl (by simp) (by simp))
  have ru : Recorded 0x100000 [] ⟨b2.cpu.regs, b2.cpu.flags, b2.cpu.gs, c2.mem⟩ :=
    z2.keep (q2.gs.trans z2.gs.symm) fun x _ => rfl
  obtain ⟨d1, n1, n2⟩ := demo_killed (v := 0x402000) (p := []) (.inr rfl : demoStack 0x6000) ru (by simp) (by decide)
  exact ⟨_, (f10.step (.act n1)).step (.act n2), rfl⟩

/-- Example for C113: two flows, each of which calls a function and returns before it passes control. -/
theorem C113_example : ∃ (A : Flows Bool) (s : State) (c : Cpu),
    FlowRun (· = []) 0x100000 ⟨.run (sampleState 0x401000 []) [] none, fun _ => none⟩ A ∧
    A.conf = .run s [0x402000] none ∧ A.others false = some (c, []) := by
  obtain ⟨a1, a2, k1, k2, r2⟩ := demo_call (p := []) (.inl rfl : demoStack 0x7000) sample_recorded 0x401000 (by decide) (by decide)
  obtain ⟨c1, c2, m1, m2, z2⟩ := demo_ret (p := []) (pre := []) (post := []) (v := 0x401000)
    (.inl rfl : demoStack 0x7000) r2 (by simp) (by simp)
  have f2 : FlowRun (· = []) 0x100000 ⟨.run (sampleState 0x401000 []) [] none, fun _ : Bool => none⟩ _ :=
    (((FlowRun.refl.step (.act k1)).step (.act k2)).step (.act m1)).step (.act m2)
  have f4 := (f2.step (.make true (fun _ => 0) 0 rfl)).step
    (.switch true (some false) (c := ⟨fun _ => 0, 0, c2.gs⟩) (q := []) rfl (by simp) fun _ => rfl)
  have rs : Recorded 0x100000 [] ⟨fun _ => 0, 0, c2.gs, c2.mem⟩ := z2.keep rfl fun x _ => rfl
  obtain ⟨b1, b2, l1, l2, q2⟩ := demo_call (p := []) (.inr rfl : demoStack 0x6000) rs 0x402000 (by decide) (by decide)
  exact ⟨_, b2, c2.cpu, (f4.step (.act l1)).step (.act l2), rfl, rfl⟩

end Verif
