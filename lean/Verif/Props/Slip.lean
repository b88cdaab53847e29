import Verif.Slip
import Verif.Props.Evex
import Verif.Props.FullMode
import Verif.Props.PlanMachineExamples

/-!
# C94: whole programs on processors with AVX-512
-/

namespace Verif

/-! ## Pushes do not contain the byte -/

/-- Code without the byte does not trap. -/
theorem run_calm {w : Code} (hw : .illegal ∉ w) : ∀ (n : Nat) (k : Code) (s s' : State),
    (∀ i ∈ k, i ∈ w) → run w n k s ≠ some (.trap s') := by
  intro n
  induction n with
  | zero => intro k s s' _ h; cases h
  | succ n ih =>
    intro k s s' hk h
    cases k with
    | nil => cases h
    | cons i k =>
      simp only [run] at h
      split at h
      · exact ih _ _ _ (fun j hj => hk j (by simp [hj])) h
      · split at h
        · rename_i ht
          exact ih _ _ _ (target_sub ht) h
        · cases h
      · rename_i e
        have : i = .illegal := by
          cases i <;> simp [exec] at e <;> first | rfl | (split at e <;> cases e)
        exact hw (this ▸ hk i (by simp))

theorem Usual.calm {c : Code} {t : Temps} (h : Usual c t) : .illegal ∉ c := by
  intro hi
  obtain ⟨r, hr⟩ := h.pushes _ hi
  cases hr

theorem restore_calm {t : Temps} {c : Code} (h : restoreTemps t = some c) : .illegal ∉ c := by
  unfold restoreTemps at h
  revert h
  generalize t.saved1 = a, t.saved2 = b, t.tmp1 = x, t.tmp2 = y
  intro h
  cases a <;> cases b <;> cases x <;> cases y <;> simp at h <;> first | simp [← h] | simp [h]

theorem stackPush_calm {jf : JitFlags} {sm : Option JitSummary} {o : Bool} {h : Int} {x : Bool} {b t : Nat}
    {c : Code} (hc : jitStackPush jf sm o h x b t = some c) : .illegal ∉ c := by
  unfold jitStackPush at hc
  split at hc
  · cases hc; simp
  · rename_i he
    simp only [Option.bind_eq_bind, Option.bind_eq_some_iff] at hc
    obtain ⟨mid, _, hc⟩ := hc
    unfold stackPushWith at hc
    rw [if_neg he] at hc
    simp only [Option.bind_eq_bind, Option.bind_eq_some_iff] at hc
    obtain ⟨⟨c1, t1⟩, h1, c2, h2, c3, h3, h4⟩ := hc
    cases h4
    have k1 : .illegal ∉ c1 := by
      unfold pushTemps at h1
      split at h1
      · exact (useSpecified_usual h1).1.calm
      · exact (saveTemps_usual h1).1.calm
      · exact (saveTemps_usual h1).1.calm
    have k2 : .illegal ∉ c2 := by
      unfold body at h2
      simp only [Option.bind_eq_bind, Option.bind_eq_some_iff] at h2
      obtain ⟨sp, _, ra, _, h2⟩ := h2
      split at h2
      · split at h2 <;> cases h2 <;> simp [saveRa, saveRaAndFrame]
      · cases h2; simp
    simp [k1, k2, restore_calm h3]

theorem registerPush_calm {jf : JitFlags} {sm : JitSummary} {h : Int} {c : Code}
    (hc : jitRegisterPush jf sm h = some c) : .illegal ∉ c := by
  unfold jitRegisterPush at hc
  split at hc
  · cases hc; simp
  · simp only [Option.bind_eq_bind, Option.bind_eq_some_iff] at hc
    obtain ⟨⟨n, r⟩, _, h2⟩ := hc
    cases h2
    split <;> simp

/-! ## From certain traps to protection -/

variable {m : ProgSem} {frame : Func → Reg} {snip : Func → Ev → Code → State → W → Prop}
  {after : Func → Code → (Nat → Byte) → Prop} {g : W}

/-- No snippet which traps is followed by bytes that make an instruction of the embedded one. -/
def NoSlip (m : ProgSem) (snip : Func → Ev → Code → State → W → Prop)
    (after : Func → Code → (Nat → Byte) → Prop) : Prop :=
  ∀ f t ev code s r, m.trace f (t ++ [ev]) → snip f ev code s r → Traps code s →
    ∀ bs, after f code bs → atByte code bs = some .undefined

theorem VStep.estep {p q : XProc} (h : VStep m frame snip after g (.on p) (.on q)) :
    EStep m frame snip g p q := by
  cases h with
  | step h _ => exact h
  | sigill h1 h2 h3 h4 h5 _ _ => exact .trap h1 h2 h3 h4 ⟨_, _, h5⟩

theorem VStep.not_slipped (hn : NoSlip m snip after) {p : VProc} {s : State} {acts : List XAct}
    (h : VStep m frame snip after g p (.slipped s acts)) : False := by
  cases h with
  | slip h1 h2 h3 h4 h5 h6 h7 => exact h7 (hn _ _ _ _ _ _ h1 h2 ⟨_, _, h5⟩ _ h6)

theorem VRun.erun {p q : VProc} (h : VRun m frame snip after g p q) :
    ∀ {x y : XProc}, p = .on x → q = .on y → ERun m frame snip g x y := by
  induction h with
  | refl => rintro x y rfl h; cases h; exact .refl _
  | step h1 h2 ih =>
    rintro x y rfl rfl
    rename_i q'
    cases q' with
    | on z => exact (ih rfl rfl).step h2.estep
    | slipped s a => cases h2

/-- If no snippet slips, protection carries over. -/
theorem EProtected.onAvx {f : Func} (h : EProtected m frame snip g f) (hn : NoSlip m snip after) :
    VProtected m frame snip after g f where
  recorded s0 p s a as h0 hr hd := h.recorded s0 p s a as h0 (hr.erun rfl rfl) hd
  unchecked s0 p v h0 hr := h.unchecked s0 p v h0 (hr.erun rfl rfl)
  accepted s0 p s acts v h0 hr hs := h.accepted s0 p s acts v h0 (hr.erun rfl rfl) hs.estep
  alarm s0 p s acts h0 hr hs := h.alarm s0 p s acts h0 (hr.erun rfl rfl) hs.estep
  stopped s0 p s acts _ hr := by
    cases hr with
    | step _ h2 => exact h2.not_slipped hn

/-! ## C94 -/

section
variable {B : Binary} {fl : InstrFlags} {skip : List Nat} {jf : JitFlags} {co : CodeObj} {info : StackInfo}
  {R : Func → RegFacts} {T : Sums} {bf : Func → BFunc} {plan : Func → Plan} {dead : Func → DeadNames}

/-- **C94, full mode**: protected on processors with AVX-512 as well, whatever stands behind the
snippets.  Missing: as in C89. -/
theorem C94_full_partial (hB : FullBinaryOk B jf co) (hb : BuiltFull fl skip co bf plan)
    (hok : ∀ f ∈ co.funcs, FullOk co info bf f) (f : Func) :
    VProtected (semOf co info plan (fun _ => False) (staysOf bf)) frame (B.FullSnippet jf co plan) after g f := by
  refine (C89_machine_partial hB hb hok frame g f).onAvx ?_
  intro f t ev code s r _ hs ht bs _
  cases ev with
  | block => exact hs.elim
  | push =>
    obtain ⟨_, _, _, _, _, hc, _⟩ := hs
    obtain ⟨n, s', h⟩ := ht
    exact absurd h (run_calm (stackPush_calm hc) _ _ _ _ fun _ h => h)
  | check =>
    obtain ⟨_, _, _, _, _, hc, _⟩ := hs
    exact C93_full hB.normal.notEmpty hB.normal.notSave hc bs

/-- The bytes behind each check that ends with the embedded byte make no instruction of it. -/
def BareOk (jf : JitFlags) (js : Func → JitSummary) (co : CodeObj) (plan : Func → Plan)
    (after : Func → Code → (Nat → Byte) → Prop) : Prop :=
  ∀ f ∈ co.funcs, ∀ pl k code, (pl, k) ∈ (plan f).checks → k.emit jf (js f) co pl = some code →
    EndsBare code → ∀ bs, after f code bs → evex bs = .undefined

theorem BareOk.noSlip {js : Func → JitSummary} (hN : Normal jf) (h : BareOk jf js co plan after)
    {inReg stays : Func → Prop} :
    NoSlip (semOf co info plan inReg stays) (B.Snippet jf js co plan) after := by
  intro f t ev code s r htr hs ht bs ha
  have hf : f ∈ co.funcs := And.left (b := ∃ _, _) htr
  cases ev with
  | block => exact hs.elim
  | push =>
    obtain ⟨pl, k, _, hc, _⟩ := hs
    obtain ⟨n, s', h⟩ := ht
    have : .illegal ∉ code := by
      cases pl <;> cases k <;>
        first | exact stackPush_calm hc | exact registerPush_calm hc
    exact absurd h (run_calm this _ _ _ _ fun _ h => h)
  | check =>
    obtain ⟨pl, k, hm, hc, _⟩ := hs
    have hsure : SureSigill code ∨ EndsBare code := by
      cases pl with
      | edge => cases hc
      | blk b | insn b =>
        cases k with
        | reg => exact .inl (C93_register hN.notEmpty hN.notSave hc)
        | stack o => exact (C93_stack_partial hN.notEmpty hN.notSave hc).imp id And.left
    rcases hsure with h1 | h1
    · exact h1 bs
    · rw [h1 bs, h f hf pl k code hm hc h1 bs ha]

/-- **C94, light mode**: protected on processors with AVX-512 if the bytes behind each check which ends
with the embedded byte are not such that they make an instruction of it.  Missing: other bytes, for
which it is false, and what is missing in C80. -/
theorem C94_protected_partial (hB : BinaryOk B fl jf co info R bf dead frame)
    (hb : Built fl skip co info R T bf plan) (hnr : ∀ f ∈ co.funcs, CallsCovered T f)
    (hcall : ∀ f ∈ co.funcs, NoCallAtCheck fl co (bf f)) (htail : ∀ f ∈ co.funcs, TailsOk co T f)
    (hleft : ∀ f ∈ co.funcs, LeftOk skip co T bf f)
    (hbare : BareOk jf (fun f => (T f).jit (dead f)) co plan after) (f : Func) :
    VProtected (semOf co info plan (inRegOf fl T) (staysOf bf)) frame
      (B.Snippet jf (fun f => (T f).jit (dead f)) co plan) after g f :=
  (C80_planned_partial hB hb hnr hcall htail hleft g f).onAvx (hbare.noSlip hB.normal)

/-- With `--disable_reg_save_opt` no check is moved. -/
theorem checks_unmoved (hb : Built fl skip co info R T bf plan) (hd : fl.disableRegSaveOpt = true) {f : Func}
    (hf : f ∈ co.funcs) {pl : Place} {k : PopKind} (hx : (pl, k) ∈ (plan f).checks) :
    k = .reg ∨ k = .stack false := by
  have hmove : ∀ {s : Option FuncSummary} {q : Pt} {st st' : Stats} {o : Bool} {p : Pt},
      moveInstrumentation fl (bf f) s q st = some (o, p, st') → o = false := by
    intro s q st st' o p h
    unfold moveInstrumentation at h
    rw [if_pos hd] at h
    cases h
    rfl
  have hsite : ∀ x ∈ (plan f).checkSites, x.2 = .stack false := by
    intro x hx
    obtain ⟨ws, an, st, st', han, hplan⟩ := (hb.cases hf).resolve_left fun h => by
      rw [h.2] at hx
      cases hx
    obtain ⟨st0, hl⟩ := function_light hplan (.inr (List.ne_nil_of_mem hx))
    obtain ⟨q, m, a, b, h1, h2, _⟩ := (light_sites hl).2 _ hx
    rw [h2, hmove h1]
  rcases hb.strategy hf with h | h
  · rw [h] at hx; cases hx
  · generalize hp : plan f = p at h
    rw [hp] at hx hsite
    cases h with
    | lowered h =>
      obtain ⟨⟨b, k', a⟩, he, hk⟩ := List.mem_map.1 hx
      injection hk with hk1 hk2
      subst hk1 hk2
      have hp := low_pops h _ he
      unfold popOf at hp
      simp only [hd, if_true] at hp
      split at hp
      · cases hp
      · split at hp <;> cases hp
        · exact .inl rfl
        · exact .inr rfl
    | regFrame =>
      obtain ⟨b, _, e⟩ := List.mem_map.1 hx
      injection e with e1 e2
      exact .inl e2.symm
    | fastPath | entryExit =>
      obtain ⟨x, hxm, e⟩ := List.mem_map.1 hx
      injection e with e1 e2
      subst e2
      exact .inr (hsite x hxm)

/-- **C94, without moved checks** (`--disable_reg_save_opt`, not `--optimize_regs`): protected whatever
stands behind the snippets.  Missing: what is missing in C80. -/
theorem C94_unmoved_partial (hB : BinaryOk B fl jf co info R bf dead frame)
    (hb : Built fl skip co info R T bf plan) (hnr : ∀ f ∈ co.funcs, CallsCovered T f)
    (hcall : ∀ f ∈ co.funcs, NoCallAtCheck fl co (bf f)) (htail : ∀ f ∈ co.funcs, TailsOk co T f)
    (hleft : ∀ f ∈ co.funcs, LeftOk skip co T bf f)
    (hd : fl.disableRegSaveOpt = true) (ho : jf.optimizeRegs = false) (f : Func) :
    VProtected (semOf co info plan (inRegOf fl T) (staysOf bf)) frame
      (B.Snippet jf (fun f => (T f).jit (dead f)) co plan) after g f := by
  refine C94_protected_partial hB hb hnr hcall htail hleft ?_ f
  intro f hf pl k code hm hc he bs _
  have hs : SureSigill code := by
    cases pl with
    | edge => cases hc
    | blk b | insn b =>
      rcases checks_unmoved hb hd hf hm with rfl | rfl
      · exact C93_register hB.normal.notEmpty hB.normal.notSave hc
      · refine (C93_stack_partial hB.normal.notEmpty hB.normal.notSave hc).resolve_right ?_
        rintro ⟨_, _, ⟨h, _⟩ | ⟨h, _⟩⟩
        · cases h
        · rw [ho] at h; cases h
  have := hs bs
  rw [he bs] at this
  exact Option.some.inj this

end

end Verif
