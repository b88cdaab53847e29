import Verif.SignalProgram
import Verif.Props.SignalThreads
import Verif.Props.UnwindMachine

/-!
# C100: the emitted code protects whole programs with signal handlers
-/

namespace Verif

/-! ## Register frames -/

/-- An interrupted register pop which finds the return address changed: if it accepts the address, then
that is one of the entries, or zero. -/
theorem IsRegPop.found {code : Code} {reg : Reg} (hc : IsRegPop code reg) {g : W} {l : List W} {s : State}
    (h : Recorded g l s) (ha : Apart g (s.regs .rsp) 16 s)
    (hne : s.mem.read64 (s.regs .rsp) ≠ s.regs reg) {own : W → Prop} {Rem : List W → Prop}
    {sigc : Code → State → State → Prop} {fits : Code → State → Prop}
    (H : CheckSigs sigc (Relies (s.regs .rsp) (s.regs .rsp) 16) own g False)
    (hS : Search Rem False (s.mem.read64 (s.regs .rsp)))
    (hl : ∀ T, (∀ v ∈ T, own v) → Rem (T ++ l)) {t : State}
    (hr : Interrupted sigc fits code code s [] t) :
    s.mem.read64 (s.regs .rsp) = 0 ∨ ∃ L, Rem (s.mem.read64 (s.regs .rsp) :: L) := by
  obtain ⟨fl, sm, hf, hrc, hcode⟩ := hc
  obtain ⟨t1, t2, tm, c1, he, hs, _, _⟩ := regPop_emitted hf hrc
  rw [he] at hcode
  obtain rfl := Option.some.inj hcode
  clear hcode he
  generalize hK : Relies (s.regs .rsp) (s.regs .rsp) 16 = K at H
  generalize hret : s.mem.read64 (s.regs .rsp) = ret at *
  refine Classical.byContradiction fun hQ => ?_
  have hKs : Covers K ((cmpState reg s).regs .rsp - BitVec.ofNat 64 (nsave true true)) (nsave true true) :=
    fun x hx => hK ▸ Or.inr hx
  obtain ⟨s1, p1, a1⟩ := str_save t1 t2 true true (cmpState reg s) hs.rsp2 hKs
  have hR1 : s1.regs .rsp + BitVec.ofInt 64 tm.spOffset = s.regs .rsp := by
    rw [a1.rsp, hs.off, ret_addr]; simp [cmpState]
  have hw : regPopCode reg t1 t2 tm c1 = .cmpMem reg .rsp 0 :: .je .success :: (c1 ++ (validateRa t1 t2 tm ++
      (restoreCode t1 t2 true true ++ [.bind .success, .loadGs reg 8]))) := by simp [regPopCode]
  have hloop : HasLoop (regPopCode reg t1 t2 tm c1) t1 t2 tm.spOffset
      (restoreCode t1 t2 true true ++ [.bind .success, .loadGs reg 8]) := by
    have := hasLoop (pre := .cmpMem reg .rsp 0 :: .je .success :: c1)
      (post := restoreCode t1 t2 true true ++ [.bind .success, .loadGs reg 8]) (sp := t1) (ra := t2) (t := tm) (by
        intro l i hi
        simp only [List.mem_cons] at hi
        rcases hi with rfl | rfl | hi
        · rfl
        · rfl
        · rw [hs.code] at hi; exact saveCode_binds _ _ _ _ l i hi)
    rw [hw]; simpa using this
  generalize hrest : restoreCode t1 t2 true true ++ [.bind .success, .loadGs reg 8] = rest at *
  generalize hcode : regPopCode reg t1 t2 tm c1 = w at *
  have C : CheckCtx K g t1 t2 tm.spOffset s1 ret :=
    { ne := hs.ne, rsp1 := hs.rsp1, rsp2 := hs.rsp2
      cov := by rw [hR1, ← hK]; exact fun x hx => Or.inl hx
      apart := by rw [← hK]; exact ha.relies
      ret := by rw [hR1, ← hret]; exact read64_of_sep a1.mem ha.ret_save }
  have key : ∀ {k' t'}, Interrupted sigc fits w w s k' t' →
      (k' = w ∧ t'.regs = s.regs ∧ (∀ x, K x → t'.mem x = s.mem x) ∧
        (∃ T, (∀ v ∈ T, own v) ∧ Recorded g (T ++ l) t')) ∨
      (k' = .je .success :: (c1 ++ (validateRa t1 t2 tm ++ rest)) ∧ AgreeOn K (cmpState reg s) t' ∧
        (∃ T, (∀ v ∈ T, own v) ∧ Recorded g (T ++ l) t')) ∨
      CheckAt K own g t1 t2 tm s1 rest l ret Rem False (fun _ _ => True) k' t' := by
    intro k' t' hr
    induction hr with
    | refl => exact Or.inl ⟨rfl, rfl, fun _ _ => rfl, [], by simp, h⟩
    | @instr k1 k2 a b _ _ hg ih =>
      rcases ih with ⟨rfl, j1, j2, T, hT, j3⟩ | ⟨rfl, j1, T, hT, j2⟩ | ih
      · rw [hw] at hg
        cases hg with
        | goto e _ => simp [exec] at e
        | next e =>
          rw [cmpState_exec] at e
          simp only [Step.next.injEq] at e
          subst e
          refine Or.inr (Or.inl ⟨rfl, ⟨j1, ?_, j3.gs.trans h.gs.symm, j2⟩, T, hT, j3.region rfl fun _ _ => rfl⟩)
          simp only [cmpState, j1]
          rw [read64_eq _ _ _ fun x hx => j2 x (by rw [← hK]; exact Or.inl hx)]
      · have hz : a.zf = false := by
          rw [State.zf, j1.flags]
          have := cmpState_zf reg s
          rw [State.zf] at this
          rw [this, hret]
          simpa using hne.symm
        cases hg with
        | goto e _ => simp [exec, hz] at e
        | next e =>
          simp [exec, hz] at e
          subst e
          refine Or.inr (Or.inr (.save c1 ⟨_, by rw [hs.code]; exact p1, j1⟩ ⟨T, hT, j2⟩))
      · refine Or.inr (Or.inr (ih.go C hS hloop hl (fun _ _ hf => ?_) hg))
        rcases hf with ⟨h0, _⟩ | ⟨L, hL, _⟩
        · exact absurd (Or.inl h0) hQ
        · exact absurd (Or.inr ⟨L, hL⟩) hQ
    | signal _ hsg ih =>
      have S := H.same hsg
      have A := H.adds hsg
      rcases ih with ⟨rfl, j1, j2, j3⟩ | ⟨rfl, j1, j2⟩ | ih
      · exact Or.inl ⟨rfl, S.regs.trans j1, fun x hx => (S.keeps x hx).trans (j2 x hx), Recorded.same A j3⟩
      · exact Or.inr (Or.inl ⟨rfl, j1.same S, Recorded.same A j2⟩)
      · exact Or.inr (Or.inr (ih.signal H hsg))
  rcases key hr with ⟨e, _⟩ | ⟨e, _⟩ | hk
  · rw [hw] at e; cases e
  · cases e
  · generalize hkk : ([] : Code) = k at hk
    cases hk with
    | save c h1 h2 => simp [validateRa] at hkk
    | dead h => cases hkk
    | rest c u u3 h1 h2 h3 =>
      rcases h3 with ⟨h0, _⟩ | ⟨L, hL, _⟩
      · exact hQ (Or.inl h0)
      · exact hQ (Or.inr ⟨L, hL⟩)
    | _ => simp [loopCode] at hkk

/-! ## What signals and interrupted snippets leave of the stack -/

theorem Same.mono {K K' : W → Prop} {s s' : State} (h : Same K s s') (hk : ∀ x, K' x → K x) : Same K' s s' :=
  ⟨h.regs, h.flags, h.gs, fun x hx => h.keeps x (hk x hx)⟩

theorem Same.slots {acts : List XAct} {s s' : State} (h : Same (Slot acts) s s') : SameSlots acts s s' :=
  fun a ha => read64_eq _ _ _ fun x hx => h.keeps x ⟨a, ha, hx⟩

theorem below_sub (sp : W) {n k : Nat} (hk : n ≤ k) (hk' : k ≤ 16) :
    (sp - BitVec.ofNat 64 n - (sp - BitVec.ofNat 64 k)).toNat + n ≤ k := by
  have : sp - BitVec.ofNat 64 n - (sp - BitVec.ofNat 64 k) = BitVec.ofNat 64 (k - n) := by bv_omega
  rw [this, BitVec.toNat_ofNat]
  omega

/-- What a snippet relies on is among what the handlers leave alone. -/
theorem Relies.needed {acts : List XAct} {a : XAct} (ha : a ∈ acts) {s : State} {n : Nat} (hn : n ≤ 16) {R : W}
    (hR : R = a.at_) : ∀ x, Relies R (s.regs .rsp) n x → Needed acts s x := by
  rintro x (hx | hx)
  · exact Or.inl ⟨a, ha, hR ▸ hx⟩
  · exact Or.inr (inRange_sub hx (below_sub _ hn (Nat.le_refl _)))

section
variable {sig : Sigs} {own : W → Prop} {g : W}

/-- More addresses may be pushed. -/
theorem CalmSig.wider (H : CalmSig sig own g) {own' : W → Prop} (h : ∀ v, own v → own' v)  :
    CalmSig sig own' g where
  same := H.same
  adds hs l hl := by
    obtain ⟨T, hT, hr⟩ := H.adds hs l hl
    exact ⟨T, fun v hv => h v (hT v hv), hr⟩
  real hs hl hO := H.real hs hl fun v hv => hO v (h v hv)
  awayAdds hs l hl := by
    obtain ⟨T, hT, hr⟩ := H.awayAdds hs l hl
    exact ⟨T, fun v hv => h v (hT v hv), hr⟩
  awayReal hs hl hO := H.awayReal hs hl fun v hv => hO v (h v hv)

theorem CalmSig.duringPush (H : CalmSig sig own g) {K K' : W → Prop} (hK : ∀ x, K' x → K x) :
    PushSigs (During sig g K) K' own g False where
  same h := (H.same h.1).mono hK
  adds h := H.adds h.1
  real h := h.elim
  window hk h := h.2 (Or.inl hk)

theorem CalmSig.duringCheck (H : CalmSig sig own g) {K K' : W → Prop} (hK : ∀ x, K' x → K x) :
    CheckSigs (During sig g K) K' own g False where
  same h := (H.same h.1).mono hK
  adds h := H.adds h.1
  real h := h.elim
  low _ h hl := h.2 (Or.inr hl)

theorem CalmSig.duringHonest (H : CalmSig sig own g) (hO : ∀ v, own v → ¬ GuardLike v) {K K' : W → Prop}
    (hK : ∀ x, K' x → K x) : CheckSigs (During sig g K) K' own g True where
  same h := (H.same h.1).mono hK
  adds h := H.adds h.1
  real _ h hr := H.real h.1 hr hO
  low h := absurd trivial h

theorem CalmSig.duringReg (H : CalmSig sig own g) {K K' : W → Prop} (hK : ∀ x, K' x → K x) :
    RegSigs (During sig g K) K' own g False False where
  same h := (H.same h.1).mono hK
  adds h := H.adds h.1
  real h := h.elim
  word h := h.elim

/-- Stored return addresses survive an interrupted snippet. -/
theorem RestKept.slots (H : CalmSig sig own g) {acts : List XAct} {s0 s t : State} {n : Nat} {S : W → Prop}
    (hcl : Clear g acts n s) (hS : ∀ x, S x → InRange x (s.regs .rsp - BitVec.ofNat 64 n) n)
    (h : RestKept (During sig g (Needed acts s0)) S g s.mem t.mem) : SameSlots acts s t := by
  intro a ha
  refine read64_eq _ _ _ fun x hx => ?_
  refine h (Slot acts) (fun k b c hs y hy => (H.same hs.1).keeps y (Or.inl hy)) x ⟨a, ha, hx⟩ (fun hk => ?_) ?_
  · exact sep_not_inRange (hcl a ha).ret_save hx (hS x hk)
  · exact sep_not_inRange (hcl a ha).ret hx

end

/-! ## The invariant -/

section
variable {m : ProgSem} {writes : Func → Prop} {gone : W → Prop}

/-- More entries on top do no harm. -/
theorem UInv.prepend {acts : List Act} {l T : List W} (hi : UInv m writes gone acts l)
    (hT : ∀ v ∈ T, gone v) : UInv m writes gone acts (T ++ l) :=
  ⟨hi.ok, hi.linked, amid_prepend hT hi.shadow⟩

/-- Entries above that of the innermost activation may be missing. -/
theorem UInv.uncover {a : Act} {as : List Act} {l l' : List W}
    (hi : UInv m writes gone (a :: as) l') (ho : IsOpen a.done) (hr : ¬ m.inReg a.func)
    (h : amid m gone as l) : UInv m writes gone (a :: as) (a.ra :: l) :=
  ⟨hi.ok, hi.linked, .inl ⟨ho, hr, [], l, rfl, nofun, h⟩⟩

variable {frame : Func → Reg} {g : W} {snip : Func → Ev → Code → State → W → Prop} {sig : Sigs}
  {own : W → Prop}

/-- A successful step of the abstract program followed by a change of registers. -/
theorem UInv.of_step (hs : Sound m writes) {s s' : State} {a a' : XAct} {as : List XAct}
    {l l' : List W} (hi : UInv m writes gone ((a :: as).map (XAct.abs frame s)) l) {top : Act}
    (hst : PStep m (.run ((a :: as).map (XAct.abs frame s)) l)
      (.run (top :: as.map (XAct.abs frame s)) l'))
    (h1 : a'.func = top.func) (h2 : a'.done = top.done) (h3 : a'.ra = top.ra)
    (h4 : s'.mem.read64 a'.at_ = top.slot)
    (h5 : m.inReg top.func → IsOpen top.done → some (s'.regs (frame a'.func)) = top.reg)
    (hsl : SameSlots as s s') :
    UInv m writes gone ((a' :: as).map (XAct.abs frame s')) l' := by
  refine (hi.pstep hs hst).alike (.cons h1 h2 h3 h4 h5
    (alike_map hsl fun x hx h => absurd h ?_))
  exact linked_callers hi.linked (x.abs frame s) (List.mem_map.mpr ⟨x, hx, rfl⟩)

/-- The address which is searched for stands above `post`, and what stands above it is in `p`. -/
def Above (p : W → Prop) (ret : W) (post L : List W) : Prop := ∃ A, L = A ++ ret :: post ∧ ∀ v ∈ A, p v

theorem Above.search {p : W → Prop} {honest : Prop} {ret : W} (hp : honest → ∀ v, p v → ¬ GuardLike v)
    (hr : honest → ¬ GuardLike ret) {post : List W} : Search (Above p ret post) honest ret where
  step := by
    rintro x L ⟨A, e, h⟩ hx
    cases A with
    | nil => cases e; exact absurd rfl hx
    | cons a A =>
      cases e
      exact ⟨A, rfl, fun v hv => h v (List.mem_cons_of_mem _ hv)⟩
  last := by
    rintro _ ⟨A, e, _⟩
    cases A <;> cases e
  real := by
    rintro x L hh ⟨A, e, h⟩
    cases A with
    | nil => cases e; exact hr hh
    | cons a A => cases e; exact hp hh _ (h _ (List.mem_cons_self ..))

theorem Above.start {p : W → Prop} {ret : W} {j post T : List W} (hT : ∀ v ∈ T, p v) (hj : ∀ v ∈ j, p v) :
    Above p ret post (T ++ (j ++ ret :: post)) :=
  ⟨T ++ j, by simp, fun v hv => (List.mem_append.1 hv).elim (hT v) (hj v)⟩

/-- What a successful check leaves: `post`, and perhaps something above it. -/
theorem Found.above {p : W → Prop} (hown : ∀ v, own v → p v) {ret : W} {post : List W} {honest : Prop} {t : State}
    (h : Found g own (Above p ret post) ret honest t) : ∃ T, (∀ v ∈ T, p v) ∧ Recorded g (T ++ post) t := by
  rcases h with ⟨_, ⟨A, e, _⟩, _⟩ | ⟨L, ⟨A, e, h⟩, T, hT, hr⟩
  · cases A <;> cases e
  · cases A with
    | nil =>
      cases e
      exact ⟨T, fun v hv => hown v (hT v hv), hr⟩
    | cons a A =>
      cases e
      refine ⟨T ++ (A ++ [ret]), fun v hv => ?_, by simpa using hr⟩
      rcases List.mem_append.1 hv with hv | hv
      · exact hown v (hT v hv)
      · rcases List.mem_append.1 hv with hv | hv
        · exact h v (List.mem_cons_of_mem _ hv)
        · exact List.mem_singleton.1 hv ▸ h _ (List.mem_cons_self ..)

theorem Interrupted.room {sigc : Code → State → State → Prop} {fits fits' : Code → State → Prop}
    (h : ∀ k t, fits k t → fits' k t) {w k k' : Code} {s s' : State} (hr : Interrupted sigc fits w k s k' s') :
    Interrupted sigc fits' w k s k' s' := by
  induction hr with
  | refl => exact .refl
  | instr _ hf hg ih => exact .instr ih (h _ _ hf) hg
  | signal _ hs ih => exact .signal ih hs

/-- Steps with signals preserve the invariant, or are excused. -/
theorem UXInv.disturbed (hs : Sound m writes) {step : XProc → XProc → Prop}
    (hstep : ∀ p q, step p q → Unwinding (XStep m frame g) g p q)
    (hfit : ∀ f t ev c s R, m.trace f (t ++ [ev]) → snip f ev c s R →
      SnipFits (m.inReg f) (frame f) c s R ev)
    (H : CalmSig sig own g) (hO : ∀ v, own v → ¬ GuardLike v) (hown : ∀ v, own v → gone v)
    {s : State} {acts : List XAct} {l : List W} (hi : UXInv m writes frame g gone s acts l) {p q : XProc}
    (h : Disturbed step m snip sig g p q) (hp : p = .run s acts)
    {gone' : W → Prop} (hsub : ∀ v, gone v → gone' v)
    (hlost : ∀ up s' acts', acts = up ++ acts' → q = .run s' acts' →
      ∀ x ∈ up, m.stacked x.func x.done → gone' x.ra)
    (hcut : ∀ a up s' acts', acts = a :: up ++ acts' → q = .run s' acts' →
      m.trace a.func (a.done ++ [.push]) → ¬ m.inReg a.func → gone' a.ra) :
    match (motive := XProc → Prop) q with
    | .run s' acts' => ∃ l', UXInv m writes frame g gone' s' acts' l'
    | .killed => ∃ a as, acts = a :: as ∧ (s.mem.read64 a.at_ = a.ra → ∃ v ∈ l, GuardLike v)
    | .diverted v => v = 0 ∨ (∃ x ∈ acts, m.stacked x.func x.done ∧ v = x.ra) ∨ gone v
    | .hijacked _ => False := by
  have lift : ∀ {s' : State} {acts' : List XAct} {l' : List W},
      UXInv m writes frame g gone s' acts' l' → ∃ l', UXInv m writes frame g gone' s' acts' l' :=
    fun h => ⟨_, h.recorded, h.inv.mono hsub⟩
  cases h with
  | step h => exact hi.step hs (hstep _ _ h) hp hsub hlost
  | @signal s s' a as h =>
    cases hp
    obtain ⟨T, hT, hrec⟩ := H.adds h _ hi.recorded
    have S := H.same h
    exact lift ⟨hrec, (hi.move S.slots fun _ _ => by rw [S.regs]).prepend fun v hv => hown v (hT v hv)⟩
  | @jump s s' u up a as h hsl =>
    cases hp
    obtain ⟨T, hT, hrec⟩ := H.awayAdds h _ hi.recorded
    have hinv := hi.inv.mono hsub
    rw [List.map_append, List.map_cons] at hinv
    have hinv : UInv m writes gone' ((a :: as).map (XAct.abs frame s)) l := hinv.drop fun y hy h1 h2 => by
      obtain ⟨x, hx, rfl⟩ := (List.mem_map (l := u :: up)).1 hy
      exact hlost (u :: up) _ _ rfl rfl x hx ⟨h1.1, h1.2, h2⟩
    refine ⟨_, hrec, (hinv.alike (alike_map hsl fun x hx h => ?_)).prepend fun v hv =>
      hsub v (hown v (hT v hv))⟩
    exact absurd h (hi.callers x (List.mem_append_right _ hx))
  | @snippet s s' a as ev code ht hsn hcl hr hret =>
    cases hp
    have ha := hcl a (by simp)
    cases hfit _ _ _ _ _ _ ht hsn with
    | @push d n free hn hc hle hR =>
      have ha' : Apart g (s.retAddr d) n s := by rw [hR]; exact ha.mono hle
      have hr := hr.room (fits' := RoomFor g) fun _ _ h => h rfl
      obtain ⟨_, c2, c3, _⟩ := hc.interrupted hi.recorded ha' (honest := False)
        (H.duringPush (Relies.needed (List.mem_cons_self ..) hle hR)) (fun h => h.elim) hr
      obtain ⟨_, _, T, hT, A, hA, hrec⟩ := c2 rfl
      have hsl := (c3 rfl).slots H (hcl.mono hle) fun _ h => h
      have i1 := hi.inv.prepend (T := A) fun v hv => hown v (hA v hv)
      have i2 := i1.of_step hs (a' := { a with done := a.done ++ [.push] }) (.push (a := a.abs frame s) ht hn)
        rfl rfl rfl (hsl a (by simp)) (fun k => absurd k hn) (fun x hx => hsl x (by simp [hx]))
      refine lift ⟨hrec, ?_⟩
      rw [hR]
      exact i2.prepend fun v hv => hown v (hT v hv)
    | @save d hn hc hR =>
      have ha' : Sep (s.retAddr d) 8 g regionSize := by rw [hR]; exact ha.ret
      obtain ⟨_, c2, _, _, c3⟩ := hc.interrupted hi.recorded ha' (honest := False) (scratch := False)
        (H.duringReg (Relies.needed (List.mem_cons_self ..) (Nat.zero_le _) hR)) hr
      obtain ⟨e1, _, _, ⟨T, hT, hrec⟩, _⟩ := c2 rfl
      have hsl := c3.slots H hcl fun _ h => h.elim
      have i2 := hi.inv.of_step hs (a' := { a with done := a.done ++ [.push] })
        (.save (a := a.abs frame s) ht hn) rfl rfl rfl (hsl a (by simp))
        (fun _ _ => by
          show some _ = some (s.mem.read64 a.at_)
          rw [e1, hR]) (fun x hx => hsl x (by simp [hx]))
      exact lift ⟨hrec, i2.prepend fun v hv => hown v (hT v hv)⟩
    | @check d n free hn hc hle hR =>
      have ha' : Apart g (s.retAddr d) n s := by rw [hR]; exact ha.mono hle
      have ho := hs.check _ _ ht
      have he := hret rfl
      rcases hi.inv.shadow with ⟨_, _, j, l', e', hj, ham⟩ | ⟨hno, _⟩
      · change l = j ++ a.ra :: l' at e'
        subst e'
        have hv : s.mem.read64 (s.retAddr d) = a.ra := by rw [hR, he]
        obtain ⟨_, c2, _⟩ := hc.interrupted hi.recorded ha' (Rem := Above gone a.ra l') (honest := False)
          (H.duringCheck (Relies.needed (List.mem_cons_self ..) hle hR))
          (by rw [hv]; exact Above.search (fun h => h.elim) fun h => h.elim)
          (fun T hT => Above.start (fun v hv => hown v (hT v hv)) hj) hr
        obtain ⟨_, c3, c4⟩ := c2 rfl
        rw [hv] at c3
        obtain ⟨T, hT, hrec⟩ := c3.above hown
        have hsl := c4.slots H (hcl.mono hle) fun _ h => h
        have i1 : UInv m writes gone ((a :: as).map (XAct.abs frame s)) (a.ra :: l') :=
          UInv.uncover (a := a.abs frame s) hi.inv ho hn ham
        have hsc : scan (a.abs frame s).slot (a.ra :: l') = some 0 := by
          show scan (s.mem.read64 a.at_) _ = _
          rw [he]; simp [scan]
        have i2 := i1.of_step hs (a' := { a with done := a.done ++ [.check] })
          (.check (a := a.abs frame s) ht hn hsc he) rfl rfl rfl (hsl a (by simp)) (fun k => absurd k hn)
          (fun x hx => hsl x (by simp [hx]))
        exact lift ⟨hrec, i2.prepend hT⟩
      · exact absurd ⟨ho, hn⟩ hno
    | @compare hn hc hR =>
      have he := hret rfl
      have hreg : s.regs (frame a.func) = a.ra :=
        Option.some.inj ((hi.inv.ok (a.abs frame s) (by simp)).reg hn (hs.check _ _ ht))
      obtain ⟨_, c2, _, _, c3⟩ := hc.interrupted hi.recorded (by rw [hR, he, hreg]) (honest := False) (scratch := False)
        (H.duringReg (Relies.needed (List.mem_cons_self ..) (Nat.zero_le _) hR)) hr
      obtain ⟨_, ⟨T, hT, hrec⟩, _⟩ := c2 rfl
      have hsl := c3.slots H hcl fun _ h => h.elim
      have i2 := hi.inv.of_step hs (a' := { a with done := a.done ++ [.check] })
        (.compare (a := a.abs frame s) ht hn (by
          show some (s.regs (frame a.func)) = some (s.mem.read64 a.at_)
          rw [hreg, he]) he) rfl rfl rfl (hsl a (by simp)) (fun _ k => absurd k.2 (by simp))
        (fun x hx => hsl x (by simp [hx]))
      exact lift ⟨hrec, i2.prepend fun v hv => hown v (hT v hv)⟩
  | @escape s t s' a up b bs ev code k ht hsn hcl hr hret haway hsl =>
    cases hp
    have ha := hcl a (by simp)
    have key : ∀ {L : List W}, (∃ T, (∀ v ∈ T, gone' v) ∧ Recorded g (T ++ L) t) →
        UInv m writes gone' ((b :: bs).map (XAct.abs frame s)) L →
        ∃ l', UXInv m writes frame g gone' s' (b :: bs) l' := by
      rintro L ⟨T, hT, hrec⟩ hinv
      obtain ⟨T', hT', hrec'⟩ := H.awayAdds haway _ hrec
      refine ⟨_, hrec', ((hinv.alike (alike_map hsl fun x hx h => ?_)).prepend hT).prepend fun v hv =>
        hsub v (hown v (hT' v hv))⟩
      exact absurd h (hi.callers x (List.mem_append_right _ hx))
    have hdrop : ∀ {L : List W}, UInv m writes gone' ((a :: up ++ b :: bs).map (XAct.abs frame s)) L →
        UInv m writes gone' ((b :: bs).map (XAct.abs frame s)) L := fun {L} hinv => by
      rw [List.map_append, List.map_cons] at hinv
      exact hinv.drop fun y hy h1 h2 => by
        obtain ⟨x, hx, rfl⟩ := (List.mem_map (l := a :: up)).1 hy
        exact hlost (a :: up) _ _ rfl rfl x hx ⟨h1.1, h1.2, h2⟩
    have hinv := hi.inv.mono hsub
    have own' : ∀ {T : List W}, (∀ v ∈ T, own v) → ∀ v ∈ T, gone' v := fun h v hv => hsub v (hown v (h v hv))
    cases hfit _ _ _ _ _ _ ht hsn with
    | @push d n free hn hc hle hR =>
      have ha' : Apart g (s.retAddr d) n s := by rw [hR]; exact ha.mono hle
      have hr := hr.room (fits' := RoomFor g) fun _ _ h => h rfl
      have hra : s.mem.read64 a.at_ = a.ra := by
        obtain ⟨p1, p2, p3⟩ := hs.push _ _ ht
        exact Classical.byContradiction fun h =>
          p1 ((hi.inv.ok (a.abs frame s) (by simp)).slot h p3).1
      obtain ⟨T, hT, hrec⟩ := (hc.interrupted hi.recorded ha' (honest := False)
        ((H.wider (own' := fun v => own v ∨ v = a.ra) fun _ => Or.inl).duringPush
          (Relies.needed (List.mem_cons_self ..) hle hR)) (fun h => h.elim) hr).2.2.2.2
        (.inr (by rw [hR, hra]))
      refine key ⟨T, fun v hv => ?_, hrec⟩ (hdrop hinv)
      rcases hT v hv with h | rfl
      · exact hsub v (hown v h)
      · exact hcut a up _ _ rfl rfl ht hn
    | @save d hn hc hR =>
      have ha' : Sep (s.retAddr d) 8 g regionSize := by rw [hR]; exact ha.ret
      obtain ⟨_, _, _, ⟨T, hT, hrec⟩, _⟩ := hc.interrupted hi.recorded ha' (honest := False) (scratch := False)
        (H.duringReg (Relies.needed (List.mem_cons_self ..) (Nat.zero_le _) hR)) hr
      exact key ⟨T, own' hT, hrec⟩ (hdrop hinv)
    | @check d n free hn hc hle hR =>
      have ha' : Apart g (s.retAddr d) n s := by rw [hR]; exact ha.mono hle
      have ho := hs.check _ _ ht
      obtain ⟨he, hgl⟩ := hret rfl
      have hgl := hgl _ hi.recorded
      rcases hi.inv.shadow with ⟨_, _, j, l', e', hj, ham⟩ | ⟨hno, _⟩
      · change l = j ++ a.ra :: l' at e'
        subst e'
        have hv : s.mem.read64 (s.retAddr d) = a.ra := by rw [hR, he]
        obtain ⟨L, hL, T, hT, hrec⟩ := (hc.interrupted hi.recorded ha'
          (Rem := Above (fun v => gone v ∧ ¬ GuardLike v) a.ra l') (honest := True)
          (H.duringHonest hO (Relies.needed (List.mem_cons_self ..) hle hR))
          (by rw [hv]; exact Above.search (fun _ _ h => h.2) fun _ => hgl _ (by simp))
          (fun T hT => Above.start (fun v hv => ⟨hown v (hT v hv), hO v (hT v hv)⟩)
            fun v hv => ⟨hj v hv, hgl v (by simp [hv])⟩) hr).2.2.2 trivial
        have i1 : UInv m writes gone' ((b :: bs).map (XAct.abs frame s)) (a.ra :: l') :=
          hdrop (UInv.uncover (a := a.abs frame s) hi.inv ho hn ham |>.mono hsub)
        have i2 : UInv m writes gone' ((b :: bs).map (XAct.abs frame s)) l' := by
          have := hinv.linked
          have i3 : UInv m writes gone' ((up ++ b :: bs).map (XAct.abs frame s)) l' :=
            ⟨fun x hx => hinv.ok x (List.mem_cons_of_mem _ hx), linked_tail (a := a.abs frame s) this,
              amid_mono hsub ham⟩
          rw [List.map_append, List.map_cons] at i3
          exact i3.drop fun y hy h1 h2 => by
            obtain ⟨x, hx, rfl⟩ := (List.mem_map (l := up)).1 hy
            exact hlost (a :: up) _ _ rfl rfl x (List.mem_cons_of_mem _ hx) ⟨h1.1, h1.2, h2⟩
        have split : ∀ {A : List W} {M : List W}, L = A ++ M → (∀ v ∈ A, gone v) →
            UInv m writes gone' ((b :: bs).map (XAct.abs frame s)) M →
            ∃ l', UXInv m writes frame g gone' s' (b :: bs) l' := by
          intro A M e hA hM
          refine key ⟨T ++ A, fun v hv => ?_, by rw [List.append_assoc, ← e]; exact hrec⟩ hM
          exact (List.mem_append.1 hv).elim (own' hT v) fun h => hsub v (hA v h)
        rcases hL with ⟨A, e, hA⟩ | ⟨x, A, e, hA⟩
        · exact split e (fun v hv => (hA v hv).1) i1
        · cases A with
          | nil => cases e; exact split (A := []) rfl nofun i2
          | cons y A =>
            cases e
            exact split rfl (fun v hv => (hA v (List.mem_cons_of_mem _ hv)).1) i1
      · exact absurd ⟨ho, hn⟩ hno
    | @compare hn hc hR =>
      have he := (hret rfl).1
      have hreg : s.regs (frame a.func) = a.ra :=
        Option.some.inj ((hi.inv.ok (a.abs frame s) (by simp)).reg hn (hs.check _ _ ht))
      obtain ⟨_, _, _, ⟨T, hT, hrec⟩, _⟩ := hc.interrupted hi.recorded (by rw [hR, he, hreg])
        (honest := False) (scratch := False)
        (H.duringReg (Relies.needed (List.mem_cons_self ..) (Nat.zero_le _) hR)) hr
      exact key ⟨T, own' hT, hrec⟩ (hdrop hinv)
  | @accept s s' a as code ht hsn hcl hr hne =>
    cases hp
    have ha := hcl a (by simp)
    have hS : ∀ ret, Search (fun L => ∀ v ∈ L, (∃ x ∈ a :: as, m.stacked x.func x.done ∧ v = x.ra) ∨ gone v) False ret := fun ret =>
      ⟨fun h _ v hv => h v (List.mem_cons_of_mem _ hv), fun h => h.elim, fun h => h.elim⟩
    have hl : ∀ T, (∀ v ∈ T, own v) → ∀ v ∈ T ++ l, (∃ x ∈ a :: as, m.stacked x.func x.done ∧ v = x.ra) ∨ gone v := fun T hT v hv => by
      rcases List.mem_append.1 hv with hv | hv
      · exact .inr (hown v (hT v hv))
      · exact hi.known v hv
    cases hfit _ _ _ _ _ _ ht hsn with
    | @check d n free hn hc hle hR =>
      have ha' : Apart g (s.retAddr d) n s := by rw [hR]; exact ha.mono hle
      obtain ⟨_, c2, _⟩ := hc.interrupted hi.recorded ha' (Rem := _) (honest := False)
        (H.duringCheck (Relies.needed (List.mem_cons_self ..) hle hR)) (hS _) hl hr
      obtain ⟨_, c3, _⟩ := c2 rfl
      rw [hR] at c3
      rcases c3 with ⟨h0, _⟩ | ⟨L, hL, _⟩
      · exact Or.inl h0
      · exact Or.inr (hL _ (List.mem_cons_self ..))
    | @compare hn hc hR =>
      have hreg : s.regs (frame a.func) = a.ra :=
        Option.some.inj ((hi.inv.ok (a.abs frame s) (by simp)).reg hn (hs.check _ _ ht))
      have := hc.found hi.recorded (by rw [hR]; exact ha) (by rw [hR, hreg]; exact hne)
        (Rem := _)
        (H.duringCheck (Relies.needed (List.mem_cons_self ..) (Nat.le_refl _) hR)) (hS _) hl hr
      rw [hR] at this
      rcases this with h0 | ⟨L, hL⟩
      · exact Or.inl h0
      · exact Or.inr (hL _ (List.mem_cons_self ..))
  | @trap s s' a as ev code k ht hsn hcl hr =>
    cases hp
    refine ⟨a, as, rfl, fun he => Classical.byContradiction fun hno => ?_⟩
    have ha := hcl a (by simp)
    cases hfit _ _ _ _ _ _ ht hsn with
    | @push d n free hn hc hle hR =>
      have ha' : Apart g (s.retAddr d) n s := by rw [hR]; exact ha.mono hle
      have hr := hr.room (fits' := RoomFor g) fun _ _ h => h rfl
      exact (hc.interrupted hi.recorded ha' (honest := False)
        (H.duringPush (Relies.needed (List.mem_cons_self ..) hle hR)) (fun h => h.elim) hr).1 _ rfl
    | @save d hn hc hR =>
      have ha' : Sep (s.retAddr d) 8 g regionSize := by rw [hR]; exact ha.ret
      exact (hc.interrupted hi.recorded ha' (honest := False) (scratch := False)
        (H.duringReg (Relies.needed (List.mem_cons_self ..) (Nat.zero_le _) hR)) hr).1 _ rfl
    | @check d n free hn hc hle hR =>
      have ha' : Apart g (s.retAddr d) n s := by rw [hR]; exact ha.mono hle
      rcases hi.inv.shadow with ⟨_, _, j, l', e', hj, ham⟩ | ⟨hno', _⟩
      · change l = j ++ a.ra :: l' at e'
        subst e'
        have hk : ∀ v ∈ j ++ a.ra :: l', ¬ GuardLike v := fun v hv hg => hno ⟨v, hv, hg⟩
        have hv : s.mem.read64 (s.retAddr d) = a.ra := by rw [hR, he]
        exact (hc.interrupted hi.recorded ha' (Rem := Above (fun v => ¬ GuardLike v) a.ra l') (honest := True)
          (H.duringHonest hO (Relies.needed (List.mem_cons_self ..) hle hR))
          (by rw [hv]; exact Above.search (fun _ _ h => h) fun _ => hk _ (by simp))
          (fun T hT => Above.start (fun v hv => hO v (hT v hv)) fun v hv => hk v (by simp [hv]))
          hr).1 _ rfl trivial
      · exact absurd ⟨hs.check _ _ ht, hn⟩ hno'
    | @compare hn hc hR =>
      have hreg : s.regs (frame a.func) = a.ra :=
        Option.some.inj ((hi.inv.ok (a.abs frame s) (by simp)).reg hn (hs.check _ _ ht))
      exact (hc.interrupted hi.recorded (by rw [hR, he, hreg]) (honest := False) (scratch := False)
        (H.duringReg (Relies.needed (List.mem_cons_self ..) (Nat.zero_le _) hR)) hr).1 _ rfl

/-- What is true of everything that can become of a thread. -/
theorem disturbed_inv (hs : Sound m writes) {step : XProc → XProc → Prop}
    (hstep : ∀ p q, step p q → Unwinding (XStep m frame g) g p q)
    (hfit : ∀ f t ev c s R, m.trace f (t ++ [ev]) → snip f ev c s R →
      SnipFits (m.inReg f) (frame f) c s R ev)
    (H : CalmSig sig own g) (hO : ∀ v, own v → ¬ GuardLike v) {f : Func} {pos : W} {s0 : State}
    (hr : Recorded g [] s0) {p0 : XProc} {qs : List XProc} (h : Trail (Disturbed step m snip sig g) p0 qs)
    (hp : XProc.start f pos s0 = p0) :
    match (motive := List XProc → Prop) qs with
    | .run s acts :: ps => ∃ l, UXInv m writes frame g 
        (fun v => XLost m (.run s acts :: ps) v ∨ XCut m (.run s acts :: ps) v ∨ own v) s acts l
    | .hijacked _ :: _ => False
    | _ => True := by
  induction h with
  | start =>
    subst hp
    refine ⟨[], hr, ⟨fun a ha => ?_, trivial, .inr ⟨fun h => (by cases h.1.1), nofun⟩⟩⟩
    obtain rfl : a = _ := List.mem_singleton.mp ha
    exact ⟨.inl rfl, fun h => absurd rfl h, fun _ h => by cases h.1⟩
  | @step q r ps hq hst ih =>
    cases q with
    | run s acts =>
      obtain ⟨l, ih⟩ := ih
      have := ih.disturbed hs hstep hfit H hO (fun _ h => .inr (.inr h)) hst rfl
        (gone' := fun v => XLost m (r :: .run s acts :: ps) v ∨ XCut m (r :: .run s acts :: ps) v ∨ own v)
        (fun v hv => hv.imp .inr (Or.imp_left .inr))
        (fun up s' acts' e1 e2 x hx h => .inl (.inl ⟨up, acts', s, s', e1 ▸ rfl, e2, x, hx, h, rfl⟩))
        (fun a up s' acts' e1 e2 h1 h2 => .inr (.inl (.inl ⟨a, up, acts', s, s', e1 ▸ rfl, e2, h1, h2, rfl⟩)))
      cases r with
      | run => exact this
      | killed => trivial
      | diverted => trivial
      | hijacked => exact this
    | killed =>
      cases hst with
      | step h => have := hstep _ _ h; cases this; rename_i h; cases h
    | diverted =>
      cases hst with
      | step h => have := hstep _ _ h; cases this; rename_i h; cases h
    | hijacked =>
      cases hst with
      | step h => have := hstep _ _ h; cases this; rename_i h; cases h

/-- The conditions suffice for the machine, also with signals. -/
theorem Sound.disturbed (hs : Sound m writes) {step : XProc → XProc → Prop}
    (hstep : ∀ p q, step p q → Unwinding (XStep m frame g) g p q)
    (hfit : ∀ f t ev c s R, m.trace f (t ++ [ev]) → snip f ev c s R →
      SnipFits (m.inReg f) (frame f) c s R ev)
    (H : CalmSig sig own g) (hO : ∀ v, own v → ¬ GuardLike v) (f : Func) :
    SProtected m frame (Disturbed step m snip sig g) own g f where
  recorded s0 p s a as hr h hd := by
    obtain ⟨ps, h⟩ := h.trail
    obtain ⟨l, hi⟩ := disturbed_inv hs hstep hfit H hO hr h rfl
    refine ⟨l, hi.recorded, fun x hx hst => ?_⟩
    have hmem : x.abs frame s ∈ (a :: as).map (XAct.abs frame s) := List.mem_map.mpr ⟨x, hx, rfl⟩
    have ho := hi.inv.danger_open hs hd _ hmem hst
    by_cases hreg : m.inReg x.func
    · exact .inr ⟨hreg, Option.some.inj ((hi.inv.ok _ hmem).reg hreg ho)⟩
    · exact .inl (amid_open hi.inv.shadow _ hmem ho hreg)
  unchecked s0 p v hr h := by
    obtain ⟨ps, h⟩ := h.trail
    exact disturbed_inv hs hstep hfit H hO hr h rfl
  accepted s0 p s acts ps v hr h hst := by
    obtain ⟨l, hi⟩ := disturbed_inv hs hstep hfit H hO hr h rfl
    exact hi.disturbed hs hstep hfit H hO (fun _ h => .inr (.inr h)) hst rfl (gone' := fun _ => True)
      (fun _ _ => trivial) (fun _ _ _ _ _ _ _ _ => trivial) (fun _ _ _ _ _ _ _ _ => trivial)
  quiet s0 p s a as l hr h he hl hg hst := by
    obtain ⟨ps, h⟩ := h.trail
    obtain ⟨l', hi⟩ := disturbed_inv hs hstep hfit H hO hr h rfl
    obtain ⟨_, _, e, hk⟩ := hi.disturbed hs hstep hfit H hO (fun _ h => .inr (.inr h)) hst rfl
      (gone' := fun _ => True) (fun _ _ => trivial) (fun _ _ _ _ _ _ _ _ => trivial)
      (fun _ _ _ _ _ _ _ _ => trivial)
    cases e
    obtain ⟨v, hv, k⟩ := hk he
    exact hg v (hi.recorded.unique hl ▸ hv) k

/-- Handlers which are functions of the program. -/
theorem Sound.handling (hs : Sound m writes) {H : Func → List Ev → Func → Prop}
    (hH : ∀ f t h, H f t h → ¬ m.inReg f ∧ (writes h → writes f ∧ (¬ m.stays f → IsOpen t))) :
    Sound (m.handling H) writes :=
  { hs with
    calls := fun f t h ht hc hw => hc.elim (hs.calls f t h ht · hw) fun k => (hH f t h k).2 hw
    inReg := fun f t h hc => hc.elim (hs.inReg f t h) fun k => (hH f t h k).1 }

end

section
variable {B : Binary} {fl : InstrFlags} {skip : List Nat} {jf : JitFlags} {co : CodeObj} {info : StackInfo}
  {R : Func → RegFacts} {T : Sums} {bf : Func → BFunc} {plan : Func → Plan}
  {dead : Func → DeadNames} {frame : Func → Reg}

/-- Where a signal may start which handlers: any handler that the analysis considers unable to overwrite
return addresses everywhere but in functions with a frame register, all others only between push and check
of functions that may overwrite return addresses themselves. -/
def HandlersAt (fl : InstrFlags) (T : Sums) (bf : Func → BFunc) (H : Func → List Ev → Func → Prop) : Prop :=
  ∀ f t h, H f t h → ¬ inRegOf fl T f ∧
    ((T h).writes → (T f).writes ∧ ((bf f).noReturn = false → .push ∈ t ∧ .check ∉ t))

/-- **C100, what holds.** A program analysed and instrumented by the tool, executed with the code emitted
for its plans, is protected under the conditions of `C87_planned_partial` also if signals arrive at any
time: handlers which are honest instrumented functions and leave the stored return addresses alone may
interrupt it anywhere, also in the snippets (there subject to the conditions of `C99_thread_partial`), return
or jump to an outer activation (out of a check only if the return address is intact and nothing on the shadow
stack looks like the guard); handlers which are functions of the program and may do anything may interrupt
it where `HandlersAt` permits.  Missing: handlers which may overwrite return addresses elsewhere, and functions
with a frame register interrupted by handlers that change its saved value; these are false. -/
theorem C100_signals_partial (hB : BinaryOk B fl jf co info R bf dead frame)
    (hb : Built fl skip co info R T bf plan) (hnr : ∀ f ∈ co.funcs, CallsCovered T f)
    (hcall : ∀ f ∈ co.funcs, NoCallAtCheck fl co (bf f)) (htail : ∀ f ∈ co.funcs, TailsOk co T f)
    (hleft : ∀ f ∈ co.funcs, LeftOk skip co T bf f)
    (hh : ∀ f ∈ co.funcs, HandlersOk co (bf f) f)
    (hc : ∀ f ∈ co.funcs, ∀ L, doLowering fl co f (some (T f)) = some (some L) → CleanupOnly co T f)
    {H : Func → List Ev → Func → Prop} (hH : HandlersAt fl T bf H)
    {own : W → Prop} (hown : ∀ v, own v → ¬ GuardLike v) (depth : Nat) (g : W) (f : Func) :
    SProtected ((semOn Flow co plan info (inRegOf fl T) (staysOf bf)).handling H) frame
      (Disturbed
        (Unwinding (EStep ((semOn Flow co plan info (inRegOf fl T) (staysOf bf)).handling H) frame
          (B.Snippet jf (fun f => (T f).jit (dead f)) co plan) g) g)
        ((semOn Flow co plan info (inRegOf fl T) (staysOf bf)).handling H)
        (B.Snippet jf (fun f => (T f).jit (dead f)) co plan) (Handled BeforePointer own g depth) g) own g f := by
  have hs := (built_sound_handlers hb hcall hnr htail hleft hh hc).handling (H := H) fun f t h k => by
    obtain ⟨k1, k2⟩ := hH f t h k
    exact ⟨k1, fun hw => ⟨(k2 hw).1, fun hst => (k2 hw).2 (by simpa using (show ¬ (bf f).noReturn = true from hst))⟩⟩
  have hfit : ∀ f t ev c s R, ((semOn Flow co plan info (inRegOf fl T) (staysOf bf)).handling H).trace f (t ++ [ev]) →
      B.Snippet jf (fun f => (T f).jit (dead f)) co plan f ev c s R →
      SnipFits (((semOn Flow co plan info (inRegOf fl T) (staysOf bf)).handling H).inReg f) (frame f) c s R ev :=
    fun _ _ _ _ _ _ ht h => snippets_fit hB hb hcall (And.left (b := ∃ _, _) ht) h
  refine hs.disturbed (fun _ _ h => ?_) hfit (handled_calm ⟨fun _ h => h, hown⟩ g depth) hown f
  cases h with
  | step h => exact .step (h.refines hfit)
  | unwind h1 h2 h3 => exact .unwind h1 h2 h3

end

end Verif
