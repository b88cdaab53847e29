import Verif.UnwindMachine
import Verif.Props.Unwind
import Verif.Props.PlanMachine

/-!
# C87: the emitted code protects whole programs with exceptions

The invariant: the shadow region holds what the invariant of `Verif.Props.Unwind` says the shadow
stack holds.
-/

namespace Verif

/-- What the thread area holds is determined by the state. -/
theorem Recorded.unique {g : W} {l l' : List W} {s : State} (h : Recorded g l s) (h' : Recorded g l' s) :
    l = l' := by
  have hlen : l.length = l'.length := by
    have e := h.pointer.symm.trans h'.pointer
    have r1 := h.room
    have r2 := h'.room
    unfold regionSize at r1 r2
    have e' : BitVec.ofNat 64 (32 + 8 * l.length) = BitVec.ofNat 64 (32 + 8 * l'.length) := by
      simpa using e
    have := congrArg BitVec.toNat e'
    simp only [BitVec.toNat_ofNat] at this
    omega
  refine List.ext_getElem hlen fun i h1 h2 => ?_
  rw [← h.holds.entries i h1, ← h'.holds.entries i h2]

section
variable {m : ProgSem} {writes : Func → Prop} {gone : W → Prop}

theorem alike_amid {as bs : List Act} (h : Alike m as bs) : ∀ {l : List W},
    amid m gone as l → amid m gone bs l := by
  induction h with
  | nil => exact fun h => h
  | cons h1 h2 h3 _ _ _ ih =>
    intro l h
    simp only [amid, h1, h2, h3]
    rcases h with ⟨k1, k2, j, l', e, hj, h⟩ | ⟨k, h⟩
    · exact .inl ⟨k1, k2, j, l', e, hj, ih h⟩
    · exact .inr ⟨k, ih h⟩

theorem UInv.alike {as bs : List Act} {l : List W} (hi : UInv m writes gone as l)
    (h : Alike m as bs) : UInv m writes gone bs l :=
  ⟨alike_ok h hi.ok, alike_linked h hi.linked, alike_amid h hi.shadow⟩

variable {frame : Func → Reg} {g : W}

/-- The invariant. -/
structure UXInv (m : ProgSem) (writes : Func → Prop) (frame : Func → Reg) (g : W) (gone : W → Prop)
    (s : State) (acts : List XAct) (l : List W) : Prop where
  recorded : Recorded g l s
  inv : UInv m writes gone (acts.map (XAct.abs frame s)) l

theorem UXInv.callers {s : State} {a : XAct} {as : List XAct} {l : List W}
    (hi : UXInv m writes frame g gone s (a :: as) l) : ∀ x ∈ as, ¬ m.inReg x.func := by
  intro x hx
  exact linked_callers hi.inv.linked (x.abs frame s) (List.mem_map.mpr ⟨x, hx, rfl⟩)

/-- A change of state which keeps the slots and the frame register of the innermost activation. -/
theorem UXInv.move {s s' : State} {a : XAct} {as : List XAct} {l : List W}
    (hi : UXInv m writes frame g gone s (a :: as) l) (hs : SameSlots (a :: as) s s')
    (hr : m.inReg a.func → IsOpen a.done → s'.regs (frame a.func) = s.regs (frame a.func)) :
    UInv m writes gone ((a :: as).map (XAct.abs frame s')) l := by
  refine hi.inv.alike (alike_map hs fun x hx h1 h2 => ?_)
  rcases List.mem_cons.mp hx with rfl | hx
  · exact hr h1 h2
  · exact absurd h1 (hi.callers x hx)

/-- The entries are those of activations, or of abandoned ones. -/
theorem UXInv.known {s : State} {acts : List XAct} {l : List W} (hi : UXInv m writes frame g gone s acts l) :
    ∀ v ∈ l, (∃ x ∈ acts, m.stacked x.func x.done ∧ v = x.ra) ∨ gone v := by
  intro v hv
  refine (amid_known hi.inv.shadow v hv).imp_left ?_
  rintro ⟨_, hx, h⟩
  obtain ⟨x, hm, rfl⟩ := List.mem_map.1 hx
  exact ⟨x, hm, h⟩

/-- A successful step of the abstract program followed by a change of registers. -/
theorem UXInv.of_step (hs : Sound m writes) {s s' : State} {a a' : XAct} {as : List XAct}
    {l l' : List W} (hi : UXInv m writes frame g gone s (a :: as) l) {top : Act}
    (hst : PStep m (.run ((a :: as).map (XAct.abs frame s)) l)
      (.run (top :: as.map (XAct.abs frame s)) l'))
    (h1 : a'.func = top.func) (h2 : a'.done = top.done) (h3 : a'.ra = top.ra)
    (h4 : s'.mem.read64 a'.at_ = top.slot)
    (h5 : m.inReg top.func → IsOpen top.done → some (s'.regs (frame a'.func)) = top.reg)
    (hsl : SameSlots as s s') (hrec : Recorded g l' s') :
    UXInv m writes frame g gone s' (a' :: as) l' := by
  exact ⟨hrec, (hi.inv.pstep hs hst).alike (.cons h1 h2 h3 h4 h5
    (alike_map hsl fun x hx h => absurd h (hi.callers x hx)))⟩

/-- Steps of the machine preserve the invariant, or are excused. -/
theorem UXInv.xstep (hs : Sound m writes) {s : State} {acts : List XAct} {l : List W}
    (hi : UXInv m writes frame g gone s acts l) {q : XProc} (h : XStep m frame g (.run s acts) q) :
    match (motive := XProc → Prop) q with
    | .run s' acts' => ∃ l', UXInv m writes frame g gone s' acts' l'
    | .killed => ∃ a as, acts = a :: as ∧ (s.mem.read64 a.at_ = a.ra → ∃ v ∈ l, GuardLike v)
    | .diverted v => v = 0 ∨ (∃ x ∈ acts, m.stacked x.func x.done ∧ v = x.ra) ∨ gone v
    | .hijacked _ => False := by
  have lift : ∀ {s' : State} {acts' : List XAct} {l' : List W},
      UXInv m writes frame g gone s' acts' l' → ∃ l', UXInv m writes frame g gone s' acts' l' :=
    fun h => ⟨_, h⟩
  cases h with
  | @work _ s' a as hsp hd =>
    rcases hd with hd | hd
    · refine lift (l' := l) ⟨hsp.recorded hi.recorded, ?_⟩
      obtain ⟨bs, h1, h2⟩ := overwritten_map (m := m) (frame := frame) (s := s) (s' := s') as hi.callers
      have hov : Overwritten ((a :: as).map (XAct.abs frame s)) _ := .cons (s'.mem.read64 a.at_) h1
      have := hi.inv.pstep hs (.attack (a := a.abs frame s) (as := as.map (XAct.abs frame s)) hd hov)
      exact this.alike (.cons rfl rfl rfl rfl
        (fun k1 k2 => by show some _ = some _; rw [hsp.frame k1 k2.1 k2.2]) h2)
    · exact lift ⟨hsp.recorded hi.recorded, hi.move hd fun k1 k2 => hsp.frame k1 k2.1 k2.2⟩
  | @block _ a as b ht =>
    exact lift ⟨hi.recorded, hi.inv.pstep hs (.block (a := a.abs frame s) ht)⟩
  | @call _ s' a as h p hc hsp hsl =>
    refine ⟨l, hsp.recorded hi.recorded, ?_⟩
    have hi' : UInv m writes gone ((a :: as).map (XAct.abs frame s')) l :=
      hi.move hsl fun k1 k2 => hsp.frame k1 k2.1 k2.2
    refine UInv.alike (hi'.pstep hs (.call (s'.mem.read64 p) hc)) (.cons rfl rfl rfl rfl (fun _ k => by cases k.1) ?_)
    exact alike_map (as := a :: as) (fun _ _ => rfl) fun _ _ _ _ => rfl
  | @push _ s' a as code d n free ht hr hp hd hcl hroom hx =>
    rw [hi.recorded.hasRoom] at hroom
    have ha := hcl a (by simp)
    rw [← hd] at ha
    obtain ⟨s'', hx', hp'⟩ := hp.run (hi.recorded.pushSep ha hroom)
    obtain rfl := hx.det hx'
    have hrec := hi.recorded.push ha hroom hp'
    have hsl := hp'.slots hi.recorded hroom hcl
    refine lift (hi.of_step hs (.push (a := a.abs frame s) ht hr) rfl rfl rfl (hsl a (by simp))
      (fun k => absurd k hr) (fun x hx => hsl x (by simp [hx])) ?_)
    have e : s.regs .rsp + BitVec.ofInt 64 d = a.at_ := hd
    rw [show (a.abs frame s).slot = s.mem.read64 a.at_ from rfl, ← e]
    exact hrec
  | @pushTrap _ a as code d n free ht hr hp hd hcl hroom hx =>
    rw [hi.recorded.hasRoom] at hroom
    have ha := hcl a (by simp)
    rw [← hd] at ha
    obtain ⟨s'', hx', hp'⟩ := hp.run (hi.recorded.pushSep ha hroom)
    exact absurd hx hx'.not_traps
  | @save _ s' a as code d ht hr hp hd hcl hx =>
    have ha := (hcl a (by simp)).ret
    rw [← hd] at ha
    obtain rfl := hx.det (hp.run (Apart.enter hi.recorded.gs ha))
    have hsl : SameSlots (a :: as) s (regPushed (frame a.func) d s) := by
      intro x hx
      show (s.mem.write64 _ _).read64 _ = _
      refine read64_write64_sep _ _ _ _ ?_
      rw [hi.recorded.gs]
      exact (sep_in (a := 8) (n := 8) (hcl x hx).ret (by decide)).symm
    refine lift (hi.of_step hs (.save (a := a.abs frame s) ht hr) rfl rfl rfl (hsl a (by simp))
      (fun _ _ => ?_) (fun x hx => hsl x (by simp [hx])) (hi.recorded.regPushed _ _))
    show some _ = some (s.mem.read64 a.at_)
    rw [← hd]
    simp [regPushed, State.set, State.retAddr]
  | @saveTrap _ a as code d ht hr hp hd hcl hx =>
    have ha := (hcl a (by simp)).ret
    rw [← hd] at ha
    exact absurd hx (hp.run (Apart.enter hi.recorded.gs ha)).not_traps
  | @check _ s' a as code d n free ht hr hp hd hcl hx he =>
    have ha := hcl a (by simp)
    rw [← hd] at ha
    have hrun := hp.run hi.recorded.holds (hi.recorded.checkSep ha)
    have e : s.regs .rsp + BitVec.ofInt 64 d = a.at_ := hd
    rw [e] at hrun
    cases hsc : scan (s.mem.read64 a.at_) l with
    | none => rw [hsc] at hrun; exact absurd hrun hx.not_traps
    | some i =>
      rw [hsc] at hrun
      obtain ⟨s'', hx', hc'⟩ := hrun
      obtain rfl := hx.det hx'
      have hsl := hc'.slots hi.recorded hcl
      have hlt : i < l.length := by
        rcases hi.inv.shadow with ⟨_, _, j, l', e', _, _⟩ | ⟨hn, _⟩
        · change l = j ++ a.ra :: l' at e'
          rw [he, e'] at hsc
          have := scan_above hsc
          rw [e', List.length_append, List.length_cons]
          omega
        · exact absurd ⟨hs.check _ _ ht, hr⟩ hn
      exact lift (hi.of_step hs (.check (a := a.abs frame s) ht hr hsc he) rfl rfl rfl
        (hsl a (by simp)) (fun k => absurd k hr) (fun x hx => hsl x (by simp [hx]))
        (hi.recorded.check ha hlt hc'))
  | @accept _ s' a as code d n free ht hr hp hd hcl hx he =>
    have ha := hcl a (by simp)
    rw [← hd] at ha
    have hrun := hp.run hi.recorded.holds (hi.recorded.checkSep ha)
    have e : s.regs .rsp + BitVec.ofInt 64 d = a.at_ := hd
    rw [e] at hrun
    cases hsc : scan (s.mem.read64 a.at_) l with
    | none => rw [hsc] at hrun; exact absurd hrun hx.not_traps
    | some i => exact (scan_mem hsc).imp id fun h => hi.known _ h
  | @fail _ a as code d n free ht hr hp hd hcl hx =>
    refine ⟨a, as, rfl, fun he => Classical.byContradiction fun hno => ?_⟩
    have ha := hcl a (by simp)
    rw [← hd] at ha
    have hrun := hp.run hi.recorded.holds (hi.recorded.checkSep ha)
    have e : s.regs .rsp + BitVec.ofInt 64 d = a.at_ := hd
    have hm : a.ra ∈ l := amid_open hi.inv.shadow (a.abs frame s) (by simp) (hs.check _ _ ht) hr
    rw [e, he] at hrun
    cases hsc : scan a.ra l with
    | none => exact scan_finds hm (fun v hv hg => hno ⟨v, hv, hg⟩) hsc
    | some i =>
      rw [hsc] at hrun
      obtain ⟨s'', hx', _⟩ := hrun
      exact hx'.not_traps hx
  | @compare _ s' a as code ht hr hp hd hcl hx he =>
    have hreg : s.regs (frame a.func) = a.ra :=
      Option.some.inj ((hi.inv.ok (a.abs frame s) (by simp)).reg hr (hs.check _ _ ht))
    have heq : s.mem.read64 (s.regs .rsp) = s.regs (frame a.func) := by rw [hd, he, hreg]
    obtain rfl := hx.det (hp.run heq)
    refine lift (hi.of_step hs (.compare (a := a.abs frame s) ht hr ?_ he) rfl rfl rfl rfl
      (fun _ k => absurd k.2 (by simp)) (fun _ _ => rfl) (hi.recorded.keep rfl fun _ _ => rfl))
    show some (s.regs (frame a.func)) = some (s.mem.read64 a.at_)
    rw [hreg, he]
  | @acceptReg _ s' a as code ht hr hp hd hcl hx he =>
    have hreg : s.regs (frame a.func) = a.ra :=
      Option.some.inj ((hi.inv.ok (a.abs frame s) (by simp)).reg hr (hs.check _ _ ht))
    have ha := hcl a (by simp)
    have hrun := hp.differ (by rw [hreg, hd]; exact he) hi.recorded.holds
      (hi.recorded.checkSep (by rw [hd]; exact ha))
    rw [hd] at hrun
    cases hsc : scan (s.mem.read64 a.at_) l with
    | none => rw [hsc] at hrun; exact absurd hrun hx.not_traps
    | some i => exact (scan_mem hsc).imp id fun h => hi.known _ h
  | @failReg _ a as code ht hr hp hd hcl hx =>
    refine ⟨a, as, rfl, fun he => ?_⟩
    have hreg : s.regs (frame a.func) = a.ra :=
      Option.some.inj ((hi.inv.ok (a.abs frame s) (by simp)).reg hr (hs.check _ _ ht))
    exact absurd hx (hp.run (by rw [hd, he, hreg])).not_traps
  | @ret _ a as hc he =>
    exact lift ⟨hi.recorded, hi.inv.pstep hs (.ret (a := a.abs frame s) hc he)⟩
  | @hijack _ a as hc hst he =>
    exact hs.complete _ _ hc ((hi.inv.ok (a.abs frame s) (by simp)).slot he hst)
  | @tail _ a as h hc ht =>
    exact lift (hi.of_step hs (.tail (a := a.abs frame s) hc ht) rfl rfl rfl rfl
      (fun _ k => by cases k.1) (fun _ _ => rfl) hi.recorded)

/-- The same with exceptions. -/
theorem UXInv.step (hs : Sound m writes) {s : State} {acts : List XAct} {l : List W}
    (hi : UXInv m writes frame g gone s acts l) {p q : XProc}
    (h : Unwinding (XStep m frame g) g p q) (hp : p = .run s acts)
    {gone' : W → Prop} (hsub : ∀ v, gone v → gone' v)
    (hlost : ∀ up s' acts', acts = up ++ acts' → q = .run s' acts' →
      ∀ x ∈ up, m.stacked x.func x.done → gone' x.ra) :
    match (motive := XProc → Prop) q with
    | .run s' acts' => ∃ l', UXInv m writes frame g gone' s' acts' l'
    | .killed => ∃ a as, acts = a :: as ∧ (s.mem.read64 a.at_ = a.ra → ∃ v ∈ l, GuardLike v)
    | .diverted v => v = 0 ∨ (∃ x ∈ acts, m.stacked x.func x.done ∧ v = x.ra) ∨ gone v
    | .hijacked _ => False := by
  cases h with
  | step h =>
    subst hp
    have := hi.xstep hs h
    cases q with
    | run =>
      obtain ⟨l', this⟩ := this
      exact ⟨l', this.recorded, this.inv.mono hsub⟩
    | killed => exact this
    | diverted => exact this
    | hijacked => exact this
  | @unwind s s' u up a as hg hreg hsl =>
    cases hp
    have hrec : Recorded g l s' := by
      refine hi.recorded.keep hg fun x hx => hreg x ?_
      rcases hx with hx | hx
      · exact inRange_sub hx (by rw [BitVec.sub_self]; decide)
      · refine inRange_sub hx ?_
        have : g + 16 - g = 16#64 := by bv_omega
        rw [this]; decide
    have hinv := hi.inv.mono hsub
    rw [List.map_append, List.map_cons] at hinv
    have hinv : UInv m writes gone' ((a :: as).map (XAct.abs frame s)) l := hinv.drop fun y hy h1 h2 => by
      obtain ⟨x, hx, rfl⟩ := (List.mem_map (l := u :: up)).1 hy
      exact hlost (u :: up) _ _ rfl rfl x hx ⟨h1.1, h1.2, h2⟩
    refine ⟨l, hrec, hinv.alike (alike_map hsl fun x hx h => ?_)⟩
    exact absurd h (hi.callers x (List.mem_append_right _ hx))

/-- What is true of everything that can become of a thread whose steps are among those of the
machine. -/
theorem steps_inv (hs : Sound m writes) {step : XProc → XProc → Prop}
    (hstep : ∀ p q, step p q → Unwinding (XStep m frame g) g p q) {f : Func} {pos : W} {s0 : State}
    (hr : Recorded g [] s0) {p0 : XProc} {qs : List XProc} (h : Trail step p0 qs)
    (hp : XProc.start f pos s0 = p0) :
    match (motive := List XProc → Prop) qs with
    | .run s acts :: ps => ∃ l, UXInv m writes frame g (XLost m (.run s acts :: ps)) s acts l
    | .hijacked _ :: _ => False
    | _ => True := by
  induction h with
  | start =>
    subst hp
    refine ⟨[], hr, ⟨fun a ha => ?_, trivial, .inr ⟨fun h => (by cases h.1.1), nofun⟩⟩⟩
    obtain rfl : a = _ := List.mem_singleton.mp ha
    exact ⟨.inl rfl, fun h => absurd rfl h, fun _ h => by cases h.1⟩
  | @step q r ps hq hst ih =>
    cases q with
    | run s acts =>
      obtain ⟨l, ih⟩ := ih
      have := ih.step hs (hstep _ _ hst) rfl (gone' := XLost m (r :: .run s acts :: ps)) (fun v => .inr)
        (fun up s' acts' e1 e2 x hx h => .inl ⟨up, acts', s, s', e1 ▸ rfl, e2, x, hx, h, rfl⟩)
      cases r with
      | run => exact this
      | killed => trivial
      | diverted => trivial
      | hijacked => exact this
    | killed => have := hstep _ _ hst; cases this; rename_i h; cases h
    | diverted => have := hstep _ _ hst; cases this; rename_i h; cases h
    | hijacked => have := hstep _ _ hst; cases this; rename_i h; cases h

theorem Steps.trail {step : XProc → XProc → Prop} {p q : XProc} (h : Steps step p q) :
    ∃ ps, Trail step p (q :: ps) := by
  induction h with
  | refl => exact ⟨[], .start⟩
  | step _ hst ih =>
    obtain ⟨ps, h⟩ := ih
    exact ⟨_, .step h hst⟩

theorem Trail.steps {step : XProc → XProc → Prop} {p q : XProc} {ps : List XProc} (h : Trail step p (q :: ps)) :
    Steps step p q := by
  generalize e : q :: ps = qs at h
  induction h generalizing q ps with
  | start => cases e; exact .refl _
  | step _ hst ih => cases e; exact (ih rfl).step hst

/-- Without exceptions no activation disappears before its check. -/
theorem Sound.not_xlost (hs : Sound m writes) {p : XProc} {ps : List XProc} (h : Trail (XStep m frame g) p ps)
    (v : W) : ¬ XLost m ps v := by
  induction h with
  | start => exact id
  | @step q r ps _ hst ih =>
    rintro (⟨up, acts, s, s', rfl, rfl, x, hx, hk, rfl⟩ | h)
    · have no : ∀ {n : Nat}, up.length + n = n → False := fun e => by
        cases List.length_eq_zero_iff.1 (show up.length = 0 by omega)
        cases hx
      generalize e : up ++ acts = bs at hst
      have hlen := congrArg List.length e
      rw [List.length_append] at hlen
      cases hst with
      | call => simp only [List.length_cons] at hlen; omega
      | ret hc =>
        cases up with
        | nil => cases hx
        | cons u up =>
          cases up with
          | nil =>
            cases e
            cases List.mem_singleton.1 hx
            exact hs.complete _ _ hc ⟨hk.1, hk.2.1⟩
          | cons => simp at hlen; omega
      | _ => exact no hlen
    · exact ih h

/-- The conditions suffice for the machine, also with exceptions. -/
theorem Sound.unwinding (hs : Sound m writes) {step : XProc → XProc → Prop}
    (hstep : ∀ p q, step p q → Unwinding (XStep m frame g) g p q) (f : Func) :
    UXProtected m frame step g f where
  recorded s0 p s a as hr h hd := by
    obtain ⟨ps, h⟩ := h.trail
    obtain ⟨l, hi⟩ := steps_inv hs hstep hr h rfl
    refine ⟨l, hi.recorded, fun x hx hst => ?_⟩
    have hmem : x.abs frame s ∈ (a :: as).map (XAct.abs frame s) := List.mem_map.mpr ⟨x, hx, rfl⟩
    have ho := hi.inv.danger_open hs hd _ hmem hst
    by_cases hreg : m.inReg x.func
    · exact .inr ⟨hreg, Option.some.inj ((hi.inv.ok _ hmem).reg hreg ho)⟩
    · exact .inl (amid_open hi.inv.shadow _ hmem ho hreg)
  unchecked s0 p v hr h := by
    obtain ⟨ps, h⟩ := h.trail
    exact steps_inv hs hstep hr h rfl
  accepted s0 p s acts ps v hr h hst := by
    obtain ⟨l, hi⟩ := steps_inv hs hstep hr h rfl
    exact hi.step hs (hstep _ _ hst) rfl (gone' := fun _ => True) (fun _ _ => trivial)
      (fun _ _ _ _ _ _ _ _ => trivial)
  quiet s0 p s a as l hr h he hl hg hst := by
    obtain ⟨ps, h⟩ := h.trail
    obtain ⟨l', hi⟩ := steps_inv hs hstep hr h rfl
    obtain ⟨_, _, e, hk⟩ := hi.step hs (hstep _ _ hst) rfl (gone' := fun _ => True) (fun _ _ => trivial)
      (fun _ _ _ _ _ _ _ _ => trivial)
    cases e
    obtain ⟨v, hv, k⟩ := hk he
    exact hg v (hi.recorded.unique hl ▸ hv) k

end

section
variable {B : Binary} {fl : InstrFlags} {skip : List Nat} {jf : JitFlags} {co : CodeObj} {info : StackInfo}
  {R : Func → RegFacts} {T : Sums} {bf : Func → BFunc} {plan : Func → Plan}
  {dead : Func → DeadNames} {frame : Func → Reg}

/-- **C87, what holds.** A program analysed and instrumented by the tool, executed with the code emitted
for its plans, is protected under the conditions of `C80_planned_partial` also if it throws and catches
exceptions or uses `longjmp`, provided that the handlers of lowered functions only clean up.  Missing:
as in `C80_planned_partial` and `C86_protected_partial`; what is missing is false. -/
theorem C87_planned_partial (hB : BinaryOk B fl jf co info R bf dead frame)
    (hb : Built fl skip co info R T bf plan) (hnr : ∀ f ∈ co.funcs, CallsCovered T f)
    (hcall : ∀ f ∈ co.funcs, NoCallAtCheck fl co (bf f)) (htail : ∀ f ∈ co.funcs, TailsOk co T f)
    (hleft : ∀ f ∈ co.funcs, LeftOk skip co T bf f)
    (hh : ∀ f ∈ co.funcs, HandlersOk co (bf f) f)
    (hc : ∀ f ∈ co.funcs, ∀ L, doLowering fl co f (some (T f)) = some (some L) → CleanupOnly co T f)
    (g : W) (f : Func) :
    UXProtected (semOn Flow co plan info (inRegOf fl T) (staysOf bf)) frame
      (Unwinding (EStep (semOn Flow co plan info (inRegOf fl T) (staysOf bf)) frame
        (B.Snippet jf (fun f => (T f).jit (dead f)) co plan) g) g) g f :=
  (built_sound_handlers hb hcall hnr htail hleft hh hc).unwinding (fun _ _ h => by
    cases h with
    | step h => exact .step (h.refines fun _ _ _ _ _ _ ht h =>
      snippets_fit hB hb hcall (And.left (b := ∃ _, _) ht) h)
    | unwind h1 h2 h3 => exact .unwind h1 h2 h3) f

end

end Verif
