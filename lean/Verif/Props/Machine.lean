import Verif.Machine
import Verif.Props.Program

/-!
# C79: the emitted code protects whole programs

The invariant: the shadow region holds what the invariant of `Verif.Props.Program` says the shadow
stack holds.
-/

namespace Verif

/-- The activation as `Verif.Program` sees it. -/
def XAct.abs (frame : Func → Reg) (s : State) (a : XAct) : Act :=
  ⟨a.func, a.done, a.ra, s.mem.read64 a.at_, some (s.regs (frame a.func))⟩

/-- The invariant. -/
structure XInv (m : ProgSem) (writes : Func → Prop) (frame : Func → Reg) (g : W) (s : State)
    (acts : List XAct) (l : List W) : Prop where
  recorded : Recorded g l s
  inv : PInv m writes (acts.map (XAct.abs frame s)) l

/-- Two lists of activations that differ in registers that do not matter. -/
inductive Alike (m : ProgSem) : List Act → List Act → Prop
  | nil : Alike m [] []
  | cons {a b : Act} {as bs : List Act} : b.func = a.func → b.done = a.done → b.ra = a.ra →
      b.slot = a.slot → (m.inReg a.func → IsOpen a.done → b.reg = a.reg) → Alike m as bs →
      Alike m (a :: as) (b :: bs)

section
variable {m : ProgSem} {writes : Func → Prop}

theorem alike_expected {as bs : List Act} (h : Alike m as bs) : ∀ {l : List W},
    expected m as l → expected m bs l := by
  induction h with
  | nil => exact fun h => h
  | cons h1 h2 h3 _ _ _ ih =>
    intro l h
    simp only [expected, h1, h2, h3]
    rcases h with ⟨k1, k2, l', e, h⟩ | ⟨k, h⟩
    · exact .inl ⟨k1, k2, l', e, ih h⟩
    · exact .inr ⟨k, ih h⟩

theorem alike_linked {as bs : List Act} (h : Alike m as bs) :
    Linked writes m as → Linked writes m bs := by
  induction h with
  | nil => exact fun h => h
  | cons h1 h2 h3 _ _ hr ih =>
    intro h
    cases hr with
    | nil => trivial
    | cons k1 k2 _ _ _ _ =>
      obtain ⟨a1, a2, a3⟩ := h
      exact ⟨by rw [h1, k1, k2]; exact a1, by rw [k1]; exact a2, ih a3⟩

theorem alike_ok {as bs : List Act} (h : Alike m as bs) (ho : ∀ a ∈ as, a.Ok m) :
    ∀ b ∈ bs, b.Ok m := by
  induction h with
  | nil => exact ho
  | cons h1 h2 h3 h4 h5 _ ih =>
    intro x hx
    rcases List.mem_cons.mp hx with rfl | hx
    · have k := ho _ (List.mem_cons_self ..)
      refine ⟨by rw [h1, h2]; exact k.trace, by rw [h1, h2, h3, h4]; exact k.slot, ?_⟩
      rw [h1, h2, h3]
      exact fun a b => (h5 a b).trans (k.reg a b)
    · exact ih (fun a ha => ho a (List.mem_cons_of_mem _ ha)) x hx

theorem PInv.alike {as bs : List Act} {l : List W} (hi : PInv m writes as l)
    (h : Alike m as bs) : PInv m writes bs l :=
  ⟨alike_ok h hi.ok, alike_linked h hi.linked, alike_expected h hi.shadow⟩

variable {frame : Func → Reg} {g : W}

/-- The callers look the same in both states. -/
theorem alike_map {s s' : State} {as : List XAct} (hs : SameSlots as s s')
    (hr : ∀ x ∈ as, m.inReg x.func → IsOpen x.done →
      s'.regs (frame x.func) = s.regs (frame x.func)) :
    Alike m (as.map (XAct.abs frame s)) (as.map (XAct.abs frame s')) := by
  induction as with
  | nil => exact .nil
  | cons a as ih =>
    refine .cons rfl rfl rfl (hs a (by simp)) (fun h1 h2 => ?_)
      (ih (fun x hx => hs x (by simp [hx])) fun x hx => hr x (by simp [hx]))
    show some _ = some _
    rw [hr a (by simp) h1 h2]

/-- Callers do not use frame registers. -/
theorem linked_callers {a : Act} {as : List Act} (h : Linked writes m (a :: as)) :
    ∀ x ∈ as, ¬ m.inReg x.func := by
  induction as generalizing a with
  | nil => intro x hx; cases hx
  | cons b bs ih =>
    intro x hx
    rcases List.mem_cons.mp hx with rfl | hx
    · exact h.2.1
    · exact ih h.2.2 x hx

theorem XInv.callers {s : State} {a : XAct} {as : List XAct} {l : List W}
    (hi : XInv m writes frame g s (a :: as) l) : ∀ x ∈ as, ¬ m.inReg x.func := by
  intro x hx
  exact linked_callers hi.inv.linked (x.abs frame s) (List.mem_map.mpr ⟨x, hx, rfl⟩)

/-- A change of state which keeps the slots and the frame register of the innermost activation. -/
theorem XInv.move {s s' : State} {a : XAct} {as : List XAct} {l : List W}
    (hi : XInv m writes frame g s (a :: as) l) (hs : SameSlots (a :: as) s s')
    (hr : m.inReg a.func → IsOpen a.done → s'.regs (frame a.func) = s.regs (frame a.func)) :
    PInv m writes ((a :: as).map (XAct.abs frame s')) l := by
  refine hi.inv.alike (alike_map hs fun x hx h1 h2 => ?_)
  rcases List.mem_cons.mp hx with rfl | hx
  · exact hr h1 h2
  · exact absurd h1 (hi.callers x hx)

theorem overwritten_map {s s' : State} : ∀ (as : List XAct),
    (∀ x ∈ as, ¬ m.inReg x.func) → ∃ bs, Overwritten (as.map (XAct.abs frame s)) bs ∧
      Alike m bs (as.map (XAct.abs frame s')) := by
  intro as
  induction as with
  | nil => intro _; exact ⟨[], .nil, .nil⟩
  | cons a as ih =>
    intro hr
    obtain ⟨bs, h1, h2⟩ := ih fun x hx => hr x (by simp [hx])
    exact ⟨_, .cons (s'.mem.read64 a.at_) h1,
      .cons rfl rfl rfl rfl (fun h => absurd h (hr a (by simp))) h2⟩

theorem Spares.recorded {a : XAct} {s s' : State} {l : List W} (h : Spares m frame g a s s')
    (hr : Recorded g l s) : Recorded g l s' := by
  refine hr.keep h.gs fun x hx => h.region x ?_
  rcases hx with hx | hx
  · exact inRange_sub hx (by rw [BitVec.sub_self]; decide)
  · refine inRange_sub hx ?_
    have : g + 16 - g = 16#64 := by bv_omega
    rw [this]; decide

/-- Stored return addresses survive a push. -/
theorem Pushed.slots {free : Reg → Prop} {R : W} {n : Nat} {s s' : State} {l : List W}
    {acts : List XAct} (hp : Pushed free R n s s') (hr : Recorded g l s)
    (hroom : 32 + 8 * l.length + 8 ≤ regionSize) (hc : Clear g acts n s) : SameSlots acts s s' := by
  intro x hx
  have ha := hc x hx
  refine read64_eq _ _ _ fun y hy => hp.same.mem y fun p hp => ?_
  simp only [List.mem_cons, List.not_mem_nil, or_false] at hp
  rcases hp with rfl | rfl | rfl
  · rw [hr.pointer]
    exact sep_not_inRange (sep_in (a := 32 + 8 * l.length) (n := 8) ha.ret hroom).symm hy
  · have := sep_in (a := 0) (n := 8) ha.ret (by decide)
    rw [gs_zero] at this
    rw [hr.gs]
    exact sep_not_inRange this.symm hy
  · exact sep_not_inRange ha.ret_save hy

/-- Stored return addresses survive a check. -/
theorem Checked.slots {free : Reg → Prop} {n i : Nat} {s s' : State} {l : List W}
    {acts : List XAct} (hp : Checked free n i s s') (hr : Recorded g l s)
    (hc : Clear g acts n s) : SameSlots acts s s' := by
  intro x hx
  have ha := hc x hx
  refine read64_eq _ _ _ fun y hy => hp.same.mem y fun p hp => ?_
  simp only [List.mem_cons, List.not_mem_nil, or_false] at hp
  rcases hp with rfl | rfl
  · have := sep_in (a := 0) (n := 8) ha.ret (by decide)
    rw [gs_zero] at this
    rw [hr.gs]
    exact sep_not_inRange this.symm hy
  · exact sep_not_inRange ha.ret_save hy

/-- A successful step of the abstract program followed by a change of registers. -/
theorem XInv.of_step (hs : Sound m writes) {s s' : State} {a a' : XAct} {as : List XAct}
    {l l' : List W} (hi : XInv m writes frame g s (a :: as) l) {top : Act}
    (hst : PStep m (.run ((a :: as).map (XAct.abs frame s)) l)
      (.run (top :: as.map (XAct.abs frame s)) l'))
    (h1 : a'.func = top.func) (h2 : a'.done = top.done) (h3 : a'.ra = top.ra)
    (h4 : s'.mem.read64 a'.at_ = top.slot)
    (h5 : m.inReg top.func → IsOpen top.done → some (s'.regs (frame a'.func)) = top.reg)
    (hsl : SameSlots as s s') (hrec : Recorded g l' s') :
    XInv m writes frame g s' (a' :: as) l' := by
  have := PInv.step hs hi.inv hst
  exact ⟨hrec, this.alike (.cons h1 h2 h3 h4 h5
    (alike_map hsl fun x hx h => absurd h (hi.callers x hx)))⟩

/-- Steps which go on preserve the invariant; the others are excused. -/
theorem XInv.step (hs : Sound m writes) {s : State} {acts : List XAct} {l : List W}
    (hi : XInv m writes frame g s acts l) {q : XProc} (h : XStep m frame g (.run s acts) q) :
    match q with
    | .run s' acts' => ∃ l', XInv m writes frame g s' acts' l'
    | .killed => ∃ a as, acts = a :: as ∧ s.mem.read64 a.at_ ≠ a.ra
    | .diverted v => v = 0 ∨ ∃ x ∈ acts, v = x.ra
    | .hijacked _ => False := by
  have excuse : ∀ {v : W}, (v = 0 ∨ ∃ x ∈ acts.map (XAct.abs frame s), v = x.ra) →
      v = 0 ∨ ∃ x ∈ acts, v = x.ra := by
    rintro v (h | ⟨x, hx, e⟩)
    · exact .inl h
    · obtain ⟨y, hy, rfl⟩ := List.mem_map.mp hx
      exact .inr ⟨y, hy, e⟩
  cases h with
  | @work _ s' a as hsp hd =>
    rcases hd with hd | hd
    · refine ⟨l, hsp.recorded hi.recorded, ?_⟩
      obtain ⟨bs, h1, h2⟩ := overwritten_map (m := m) (frame := frame) (s := s) (s' := s') as hi.callers
      have hst : PStep m (.run ((a :: as).map (XAct.abs frame s)) l) _ :=
        .attack (a := a.abs frame s) (as := as.map (XAct.abs frame s)) hd
          (.cons (s'.mem.read64 a.at_) h1)
      have := PInv.step hs hi.inv hst
      exact this.alike (.cons rfl rfl rfl rfl
        (fun k1 k2 => by show some _ = some _; rw [hsp.frame k1 k2.1 k2.2]) h2)
    · exact ⟨l, hsp.recorded hi.recorded, hi.move hd fun k1 k2 => hsp.frame k1 k2.1 k2.2⟩
  | @block _ a as b ht =>
    exact ⟨l, hi.recorded, hi.inv.block (a := a.abs frame s) ht⟩
  | @call _ s' a as h p hc hsp hsl =>
    refine ⟨l, hsp.recorded hi.recorded, ?_⟩
    have hi' : PInv m writes ((a :: as).map (XAct.abs frame s')) l :=
      hi.move hsl fun k1 k2 => hsp.frame k1 k2.1 k2.2
    have := PInv.step hs hi' (.call (s'.mem.read64 p) hc)
    refine this.alike (.cons rfl rfl rfl rfl (fun _ k => by cases k.1) ?_)
    exact alike_map (as := a :: as) (fun _ _ => rfl) fun _ _ _ _ => rfl
  | @push _ s' a as code d n free ht hr hp hd hcl hroom hx =>
    rw [hi.recorded.hasRoom] at hroom
    have ha := hcl a (by simp)
    rw [← hd] at ha
    obtain ⟨s'', hx', hp'⟩ := hp.run (hi.recorded.pushSep ha hroom)
    obtain rfl := hx.det hx'
    have hrec := hi.recorded.push ha hroom hp'
    have hsl := hp'.slots hi.recorded hroom hcl
    refine ⟨_, hi.of_step hs (.push (a := a.abs frame s) ht hr) rfl rfl rfl (hsl a (by simp))
      (fun k => absurd k hr) (fun x hx => hsl x (by simp [hx])) ?_⟩
    have e : s.regs .rsp + BitVec.ofInt 64 d = a.at_ := hd
    rw [show (a.abs frame s).slot = s.mem.read64 a.at_ from rfl, ← e]
    exact hrec
  | @pushTrap _ a as code d n free ht hr hp hd hcl hroom hx =>
    rw [hi.recorded.hasRoom] at hroom
    have ha := hcl a (by simp)
    rw [← hd] at ha
    obtain ⟨s'', hx', hp'⟩ := hp.run (hi.recorded.pushSep ha hroom)
    exact absurd hx hx'.not_traps
  | @save _ s' a as code d ht hr hp hd hcl hx =>
    have ha := (hcl a (by simp)).ret
    rw [← hd] at ha
    obtain rfl := hx.det (hp.run (Apart.enter hi.recorded.gs ha))
    have hsl : SameSlots (a :: as) s (regPushed (frame a.func) d s) := by
      intro x hx
      show (s.mem.write64 _ _).read64 _ = _
      refine read64_write64_sep _ _ _ _ ?_
      rw [hi.recorded.gs]
      exact (sep_in (a := 8) (n := 8) (hcl x hx).ret (by decide)).symm
    refine ⟨_, hi.of_step hs (.save (a := a.abs frame s) ht hr) rfl rfl rfl (hsl a (by simp))
      (fun _ _ => ?_) (fun x hx => hsl x (by simp [hx])) (hi.recorded.regPushed _ _)⟩
    show some _ = some (s.mem.read64 a.at_)
    rw [← hd]
    simp [regPushed, State.set, State.retAddr]
  | @saveTrap _ a as code d ht hr hp hd hcl hx =>
    have ha := (hcl a (by simp)).ret
    rw [← hd] at ha
    exact absurd hx (hp.run (Apart.enter hi.recorded.gs ha)).not_traps
  | @check _ s' a as code d n free ht hr hp hd hcl hx he =>
    have ha := hcl a (by simp)
    rw [← hd] at ha
    have hrun := hp.run hi.recorded.holds (hi.recorded.checkSep ha)
    have e : s.regs .rsp + BitVec.ofInt 64 d = a.at_ := hd
    rw [e] at hrun
    cases hsc : scan (s.mem.read64 a.at_) l with
    | none => rw [hsc] at hrun; exact absurd hrun hx.not_traps
    | some i =>
      rw [hsc] at hrun
      obtain ⟨s'', hx', hc'⟩ := hrun
      obtain rfl := hx.det hx'
      have hsl := hc'.slots hi.recorded hcl
      have hlt : i < l.length := by
        obtain ⟨l', e', _⟩ := open_top hi.inv (hs.check _ _ ht) hr
        change l = a.ra :: l' at e'
        rw [he, e', scan, if_pos rfl] at hsc
        cases hsc
        rw [e']; simp
      exact ⟨_, hi.of_step hs (.check (a := a.abs frame s) ht hr hsc he) rfl rfl rfl
        (hsl a (by simp)) (fun k => absurd k hr) (fun x hx => hsl x (by simp [hx]))
        (hi.recorded.check ha hlt hc')⟩
  | @accept _ s' a as code d n free ht hr hp hd hcl hx he =>
    have ha := hcl a (by simp)
    rw [← hd] at ha
    have hrun := hp.run hi.recorded.holds (hi.recorded.checkSep ha)
    have e : s.regs .rsp + BitVec.ofInt 64 d = a.at_ := hd
    rw [e] at hrun
    cases hsc : scan (s.mem.read64 a.at_) l with
    | none => rw [hsc] at hrun; exact absurd hrun hx.not_traps
    | some i => exact excuse (PInv.step hs hi.inv (.accept (a := a.abs frame s) ht hr hsc he))
  | @fail _ a as code d n free ht hr hp hd hcl hx =>
    refine ⟨a, as, rfl, fun he => ?_⟩
    have ha := hcl a (by simp)
    rw [← hd] at ha
    have hrun := hp.run hi.recorded.holds (hi.recorded.checkSep ha)
    have e : s.regs .rsp + BitVec.ofInt 64 d = a.at_ := hd
    obtain ⟨l', e', _⟩ := open_top hi.inv (hs.check _ _ ht) hr
    change l = a.ra :: l' at e'
    have hsc : scan a.ra l = some 0 := by rw [e', scan, if_pos rfl]
    rw [e, he, hsc] at hrun
    obtain ⟨s'', hx', _⟩ := hrun
    exact hx'.not_traps hx
  | @compare _ s' a as code ht hr hp hd hcl hx he =>
    have hreg : s.regs (frame a.func) = a.ra :=
      Option.some.inj ((hi.inv.ok (a.abs frame s) (by simp)).reg hr (hs.check _ _ ht))
    have heq : s.mem.read64 (s.regs .rsp) = s.regs (frame a.func) := by rw [hd, he, hreg]
    obtain rfl := hx.det (hp.run heq)
    refine ⟨_, hi.of_step hs (.compare (a := a.abs frame s) ht hr ?_ he) rfl rfl rfl rfl
      (fun _ k => absurd k.2 (by simp)) (fun _ _ => rfl) (hi.recorded.keep rfl fun _ _ => rfl)⟩
    show some (s.regs (frame a.func)) = some (s.mem.read64 a.at_)
    rw [hreg, he]
  | @acceptReg _ s' a as code ht hr hp hd hcl hx he =>
    have hreg : s.regs (frame a.func) = a.ra :=
      Option.some.inj ((hi.inv.ok (a.abs frame s) (by simp)).reg hr (hs.check _ _ ht))
    have ha := hcl a (by simp)
    have hrun := hp.differ (by rw [hreg, hd]; exact he) hi.recorded.holds
      (hi.recorded.checkSep (by rw [hd]; exact ha))
    rw [hd] at hrun
    cases hsc : scan (s.mem.read64 a.at_) l with
    | none => rw [hsc] at hrun; exact absurd hrun hx.not_traps
    | some i =>
      refine excuse (PInv.step hs hi.inv (.search (a := a.abs frame s) ht hr ?_ hsc))
      show some (s.regs (frame a.func)) ≠ some (s.mem.read64 a.at_)
      rw [hreg]
      exact fun h => he (Option.some.inj h).symm
  | @failReg _ a as code ht hr hp hd hcl hx =>
    refine ⟨a, as, rfl, fun he => ?_⟩
    have hreg : s.regs (frame a.func) = a.ra :=
      Option.some.inj ((hi.inv.ok (a.abs frame s) (by simp)).reg hr (hs.check _ _ ht))
    exact (hp.run (by rw [hd, he, hreg])).not_traps hx
  | @ret _ a as hc he =>
    exact ⟨l, hi.recorded, PInv.step hs hi.inv (.ret (a := a.abs frame s) hc he)⟩
  | @hijack _ a as hc hst he =>
    exact PInv.step hs hi.inv (.hijack (a := a.abs frame s) hc hst he)
  | @tail _ a as h hc ht =>
    exact ⟨l, hi.of_step hs (.tail (a := a.abs frame s) hc ht) rfl rfl rfl rfl
      (fun _ k => by cases k.1) (fun _ _ => rfl) hi.recorded⟩

theorem xinv_start {s : State} (hr : Recorded g [] s) (f : Func) (p : W) :
    XInv m writes frame g s [⟨f, [], s.mem.read64 p, p⟩] [] :=
  ⟨hr, (pinv_start f (s.mem.read64 p)).alike (.cons rfl rfl rfl rfl (fun _ k => by cases k.1) .nil)⟩

/-- What is true of everything that can become of a thread. -/
def XProc.Fine (m : ProgSem) (writes : Func → Prop) (frame : Func → Reg) (g : W) : XProc → Prop
  | .run s acts => ∃ l, XInv m writes frame g s acts l
  | .hijacked _ => False
  | _ => True

theorem xrun_inv (hs : Sound m writes) {f : Func} {p : W} {s : State} (hr : Recorded g [] s)
    {q : XProc} (h : XRun m frame g (.start f p s) q) : q.Fine m writes frame g := by
  generalize hp : XProc.start f p s = p0 at h
  induction h with
  | refl => subst hp; exact ⟨[], xinv_start hr f p⟩
  | @step q r _ hst ih =>
    cases q with
    | run s acts =>
      obtain ⟨l, hi⟩ := ih
      have := hi.step hs hst
      cases r with
      | run => exact this
      | killed => trivial
      | diverted => trivial
      | hijacked => exact this
    | killed => cases hst
    | diverted => cases hst
    | hijacked => cases hst

/-- The conditions suffice for the machine. -/
theorem Sound.machine (hs : Sound m writes) (f : Func) : XProtected m frame g f where
  recorded s0 p s a as hr h hd := by
    obtain ⟨l, hi⟩ := xrun_inv hs hr h
    refine ⟨l, hi.recorded, fun x hx hst => ?_⟩
    have hmem : x.abs frame s ∈ (a :: as).map (XAct.abs frame s) := List.mem_map.mpr ⟨x, hx, rfl⟩
    have ho := danger_open hs hi.inv hd _ hmem hst
    by_cases hreg : m.inReg x.func
    · exact .inr ⟨hreg, Option.some.inj ((hi.inv.ok _ hmem).reg hreg ho)⟩
    · exact .inl (expected_open hi.inv.shadow _ hmem ho hreg)
  unchecked s0 p v hr h := xrun_inv hs hr h
  accepted s0 p s acts v hr h hst := by
    obtain ⟨l, hi⟩ := xrun_inv hs hr h
    exact hi.step hs hst
  alarm s0 p s acts hr h hst := by
    obtain ⟨l, hi⟩ := xrun_inv hs hr h
    exact hi.step hs hst

end

end Verif
