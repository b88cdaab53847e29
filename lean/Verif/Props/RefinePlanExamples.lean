import Verif.Props.RefinePlan
import Verif.Props.Script
import Verif.Props.RefineExamples
import Verif.Props.PlanMachineExamples
import Verif.Props.UnwindExamples

/-! C104: instrumented programs which do what the originals do. -/

namespace Verif

/-- The slots are at or above the stack pointer. -/
def SlotsIn (sp : W) (acts : List XAct) : Prop :=
  0x6100 ≤ sp.toNat ∧ ∀ x ∈ acts, sp ≤ x.at_ ∧ x.at_.toNat ≤ 0x7000

instance (sp : W) (acts : List XAct) : Decidable (SlotsIn sp acts) :=
  inferInstanceAs (Decidable (_ ∧ ∀ _ ∈ _, _))

/-- The program behaves as `m`, with the stack pointer at `sp` and the activations of `view`. -/
def Scripted (m : ProgSem) (snip : Func → Ev → Place → Code → State → W → Prop) (loose : Prop) (sp : Nat → W)
    (view : Nat → List XAct) (k : Nat) : ScriptOp → Prop
  | .halt => True
  | .go k' => sp k' = sp k ∧ ∀ s, Moves m loose (view k) s (view k') s
  | .set _ _ k' | .cmp _ k' => sp k' = sp k ∧ ∀ s s', s'.mem = s.mem → Moves m loose (view k) s (view k') s'
  | .test _ k1 k2 | .jz k1 k2 => (sp k1 = sp k ∧ ∀ s, Moves m loose (view k) s (view k1) s) ∧
      (sp k2 = sp k ∧ ∀ s, Moves m loose (view k) s (view k2) s)
  | .call v k' => sp k' = sp k - 8 ∧ SlotsIn (sp k) (view k) ∧ (view k' = view k ∨ ¬ GuardLike v ∧ ∃ a as h,
      view k = a :: as ∧ view k' = ⟨h, [], v, sp k - 8⟩ :: a :: as ∧ m.calls a.func a.done h)
  | .up k' => sp k' = sp k + 8 ∧ ∀ s s', s'.mem = s.mem → Moves m loose (view k) s (view k') s'
  | .snip c k' => sp k' = sp k ∧ SlotsIn (sp k) (view k) ∧ ∃ a as ev b, ev ≠ .block b ∧ view k = a :: as ∧
      view k' = { a with done := a.done ++ [ev] } :: as ∧ m.trace a.func (a.done ++ [ev]) ∧
      ∀ s, s.regs .rsp = sp k → snip a.func ev (.blk b) c s a.at_

section
variable {sc : Nat → ScriptOp} {m : ProgSem} {snip : Func → Ev → Place → Code → State → W → Prop} {loose : Prop}
  {sp : Nat → W} {view : Nat → List XAct} {s0 : State} {B : Binary} {frame : Func → Reg}

/-- Where the stack pointer is after an instruction. -/
theorem script_sp_step {k k' : Nat} {s s' : State} {l : W} (hk : Scripted m snip loose sp view k (sc k))
    (ih : s.regs .rsp = sp k) (hs : (scriptGuest sc).step k s l k' s') : s'.regs .rsp = sp k' := by
  have hs : scriptStep sc k s = some (_, k', s') := hs
  unfold scriptStep at hs
  cases e : sc k with
  | snip c k1 => rw [e] at hs; cases hs
  | halt => rw [e] at hs; cases hs
  | go k1 | cmp r k1 => rw [e] at hs hk; cases hs; rw [ih, hk.1]
  | set r v k1 =>
    rw [e] at hs hk
    dsimp only [ScriptOp.step] at hs
    split at hs
    · cases hs
    · next hr =>
      cases hs
      show (if Reg.rsp = r then v else s.regs .rsp) = _
      rw [if_neg (Ne.symm hr), ih, hk.1]
  | test r k1 k2 | jz k1 k2 =>
    rw [e] at hs hk
    cases hs
    split
    · rw [ih, hk.1.1]
    · rw [ih, hk.2.1]
  | call v k1 =>
    rw [e] at hs hk
    dsimp only [ScriptOp.step] at hs
    split at hs
    · cases hs
      show s.regs .rsp - 8 = _
      rw [ih, hk.1]
    · cases hs
  | up k1 =>
    rw [e] at hs hk
    dsimp only [ScriptOp.step] at hs
    split at hs
    · cases hs
      show s.regs .rsp + 8 = _
      rw [ih, hk.1]
    · cases hs

theorem script_sp_pass {k k' : Nat} {s : State} {c : Code} (hk : Scripted m snip loose sp view k (sc k))
    (ih : s.regs .rsp = sp k) (hx : (scriptGuest sc).site k = some (c, k')) : s.regs .rsp = sp k' := by
  simp only [scriptGuest, scriptSite] at hx
  cases e : sc k with
  | snip c k1 => rw [e] at hx hk; cases hx; rw [ih, hk.1]
  | halt | go _ | test _ _ _ | set _ _ _ | cmp _ _ | jz _ _ | call _ _ | up _ => rw [e] at hx; cases hx

theorem script_sp (h : ∀ k, Scripted m snip loose sp view k (sc k)) (h0 : s0.regs .rsp = sp 0) {tr : List W}
    {k : Nat} {s : State} (hr : BareRun (scriptGuest sc) 0 s0 tr k s) : s.regs .rsp = sp k := by
  induction hr with
  | start => exact h0
  | step _ hs ih =>
    cases hs with
    | own hs => exact script_sp_step (h _) ih hs
    | pass hx => exact script_sp_pass (h _) ih hx

theorem script_moves {k k' : Nat} {s s' : State} {l : W} (hk : Scripted m snip loose sp view k (sc k))
    (hsp : s.regs .rsp = sp k) (hs : (scriptGuest sc).step k s l k' s') : Moves m loose (view k) s (view k') s' := by
  have hs : scriptStep sc k s = some (l, k', s') := hs
  unfold scriptStep at hs
  cases e : sc k with
  | snip c k1 => rw [e] at hs; cases hs
  | halt => rw [e] at hs; cases hs
  | go k1 => rw [e] at hs hk; cases hs; exact hk.2 s
  | cmp r k1 => rw [e] at hs hk; cases hs; exact hk.2 _ _ rfl
  | set r v k1 =>
    rw [e] at hs hk
    dsimp only [ScriptOp.step] at hs
    split at hs
    · cases hs
    · cases hs
      exact hk.2 _ _ rfl
  | test r k1 k2 | jz k1 k2 =>
    rw [e] at hs hk
    cases hs
    split
    · exact hk.1.2 s
    · exact hk.2.2 s
  | up k1 =>
    rw [e] at hs hk
    dsimp only [ScriptOp.step] at hs
    split at hs
    · cases hs
      exact hk.2 _ _ rfl
    · cases hs
  | call v k1 =>
    rw [e] at hs hk
    dsimp only [ScriptOp.step] at hs
    split at hs
    · cases hs
      obtain ⟨_, ⟨h1, h2⟩, hk⟩ := hk
      have same : SameSlots (view k) s
          { s.set .rsp (s.regs .rsp - 8) with mem := s.mem.write64 (s.regs .rsp - 8) v } := by
        intro x hx
        obtain ⟨h3, h4⟩ := h2 x hx
        show (s.mem.write64 (s.regs .rsp - 8) v).read64 x.at_ = _
        rw [hsp]
        refine read64_write64_sep _ _ _ _ (sep_of_le (by decide) (by decide) ?_)
        constructor <;> bv_omega
      rcases hk with e2 | ⟨hg, a, as, f, e1, e2, hc⟩
      · rw [e2]; exact .work same
      rw [e2, e1]
      have hv : (s.mem.write64 (s.regs .rsp - 8) v).read64 (sp k - 8) = v := by
        rw [hsp]; exact read64_write64 ..
      have := Moves.call (m := m) (loose := loose) (s := s)
        (s' := { s.set .rsp (s.regs .rsp - 8) with mem := s.mem.write64 (s.regs .rsp - 8) v })
        (sp k - 8) hc (as := as) (by rw [← e1]; exact same) (fun _ => ?_)
      · rw [show State.mem _ = s.mem.write64 (s.regs .rsp - 8) v from rfl, hv] at this
        exact this
      · show ¬ GuardLike ((s.mem.write64 (s.regs .rsp - 8) v).read64 _)
        rw [hv]
        exact hg
    · cases hs

theorem script_follows_live {regs : Nat → List Reg} {flags : Nat → Bool} {spoils : Func → Ev → Place → Reg → Prop}
    (h : ∀ k, Scripted m snip loose sp view k (sc k)) (h0 : s0.regs .rsp = sp 0)
    (hb : ∀ a ∈ view 0, a.done = [] ∧ s0.mem.read64 a.at_ = a.ra ∧ ¬ GuardLike a.ra)
    (hn : ∀ k, ∀ a ∈ view k, ¬ m.inReg a.func)
    (hd : ∀ k c k', sc k = .snip c k' → (∀ r ∈ regs k, r ∈ regs k') ∧ (flags k = true → flags k' = true) ∧
      ∀ a as ev, view k = a :: as → view k' = { a with done := a.done ++ [ev] } :: as →
        (∀ s b r, snip a.func ev (.blk b) c s a.at_ → spoils a.func ev (.blk b) r → r ∈ regs k') ∧
        (ev = .check → flags k' = true)) :
    (scriptGuest sc).Follows m frame snip spoils (liveBlind regs flags) view loose sigBase 0 s0 where
  begins a ha := ⟨(hb a ha).1, (hb a ha).2.1, fun _ => (hb a ha).2.2⟩
  moves tr k s l k' s' hr hs := script_moves (h k) (script_sp h h0 hr) hs
  sites tr k s c k' hr hx := by
    have hsp := script_sp h h0 hr
    have hk := h k
    simp only [scriptGuest, scriptSite] at hx
    cases e : sc k with
    | halt | go _ | test _ _ _ | set _ _ _ | cmp _ _ | jz _ _ | call _ _ | up _ => rw [e] at hx; cases hx
    | snip c k1 =>
      rw [e] at hx hk
      cases hx
      obtain ⟨_, ⟨h1, h2⟩, a, as, ev, b, hev, e1, e2, ht, hc⟩ := hk
      obtain ⟨h3, h4⟩ := h2 a (by rw [e1]; simp)
      refine ⟨a, as, ev, .blk b, e1, e2, ht, hc s hsp, ?_, fun x hx => ?_, fun x hx => ?_,
        fun r hr => ?_, fun hf => ?_, fun hi => absurd hi (hn k a (by rw [e1]; simp))⟩
      · refine clear_of (by rw [hsp]; exact h2) ?_
        rw [hsp]
        constructor <;> bv_omega
      · rw [hsp]
        exact script_visible (by bv_omega) h4 h3 hx
      · rcases hx with hx | hx
        · exact hx
        · refine .inr ?_
          rw [hsp] at hx ⊢
          simp only [Place.width, InRange] at hx
          bv_omega
      · rcases hr with hr | hr
        · exact (hd k c _ e).1 r hr
        · exact ((hd k c _ e).2.2 a as ev e1 e2).1 s _ _ (hc s hsp) hr
      · rcases hf with hf | hf
        · exact (hd k c _ e).2.1 hf
        · exact ((hd k c _ e).2.2 a as ev e1 e2).2 hf
  frame k r := by
    refine ⟨nofun, ?_⟩
    rintro ⟨a, as, e, hi, _⟩
    exact absurd hi (hn k a (by rw [e]; simp))

theorem script_follows_of {spoils : Func → Ev → Place → Reg → Prop} (hno : ∀ f ev b r, ¬ spoils f ev (.blk b) r)
    (h : ∀ k, Scripted m snip loose sp view k (sc k)) (h0 : s0.regs .rsp = sp 0)
    (hb : ∀ a ∈ view 0, a.done = [] ∧ s0.mem.read64 a.at_ = a.ra ∧ ¬ GuardLike a.ra)
    (hn : ∀ k, ∀ a ∈ view k, ¬ m.inReg a.func) :
    (scriptGuest sc).Follows m frame snip spoils scriptBlind view loose sigBase 0 s0 :=
  script_follows_live h h0 hb hn fun _ _ _ _ => ⟨fun _ h => h, fun _ => rfl, fun _ _ _ _ _ =>
    ⟨fun _ _ _ _ h => absurd h (hno _ _ _ _), fun _ => rfl⟩⟩

theorem script_follows (h : ∀ k, Scripted m snip loose sp view k (sc k)) (h0 : s0.regs .rsp = sp 0)
    (hb : ∀ a ∈ view 0, a.done = [] ∧ s0.mem.read64 a.at_ = a.ra ∧ ¬ GuardLike a.ra)
    (hn : ∀ k, ∀ a ∈ view k, ¬ m.inReg a.func) :
    (scriptGuest sc).Follows m frame snip (B.Spoils {} co fun _ => {}) scriptBlind view loose sigBase 0 s0 :=
  script_follows_of (fun _ ev _ _ hr => by cases ev <;> simp [Binary.Spoils] at hr) h h0 hb hn

/-- How many return addresses the shadow stack will hold. -/
theorem script_tally (bound : Nat → Nat)
    (hb : ∀ k, match sc k with
      | .snip _ k' => bound k + 1 ≤ bound k'
      | .go k' | .set _ _ k' | .cmp _ k' | .call _ k' | .up k' => bound k ≤ bound k'
      | .test _ k1 k2 | .jz k1 k2 => bound k ≤ bound k1 ∧ bound k ≤ bound k2
      | .halt => True) {l : List W} {k : Nat} {s : State}
    (h : Announced (scriptGuest sc) m view 0 s0 l k s) : l.length ≤ bound k := by
  have site : ∀ {k k' : Nat} {c : Code}, (scriptGuest sc).site k = some (c, k') → bound k + 1 ≤ bound k' := by
    intro k k' c hx
    have := hb k
    simp only [scriptGuest, scriptSite] at hx
    cases e : sc k with
    | halt | go _ | test _ _ _ | set _ _ _ | cmp _ _ | jz _ _ | call _ _ | up _ => rw [e] at hx; cases hx
    | snip c k1 =>
      rw [e] at hx this
      cases hx
      exact this
  induction h with
  | start => simp
  | @own l k k' s s' lab _ hs ih =>
    refine Nat.le_trans ih ?_
    have hs : scriptStep sc k s = some (lab, k', s') := hs
    have := hb k
    unfold scriptStep at hs
    cases e : sc k with
    | snip c k1 => rw [e] at hs; cases hs
    | halt => rw [e] at hs; cases hs
    | go k1 | cmp r k1 => rw [e] at hs this; cases hs; exact this
    | set r v k1 =>
      rw [e] at hs this
      dsimp only [ScriptOp.step] at hs
      split at hs
      · cases hs
      · cases hs; exact this
    | test r k1 k2 | jz k1 k2 =>
      rw [e] at hs this
      cases hs
      split
      · exact this.1
      · exact this.2
    | call v k1 | up k1 =>
      rw [e] at hs this
      dsimp only [ScriptOp.step] at hs
      split at hs
      · cases hs; exact this
      · cases hs
  | push _ hx _ _ _ ih => have := site hx; simp; omega
  | check _ hx _ _ _ hf ih =>
    have := site hx
    obtain ⟨pre, e, _⟩ := hf
    rw [e] at ih
    simp at ih
    omega
  | frame _ hx _ _ ih => have := site hx; omega

end

/-! ## A program with calls and tail calls -/

namespace Small

/-- The code of a push or check of a plan. -/
def pushAt (p : Small) (f : Func) (b : Blk) : Code :=
  (PushKind.emit {} ((p.sums f).jit {}) p.code (.stack false 0 false) (.blk b)).getD []

def checkAt (p : Small) (f : Func) (b : Blk) : Code :=
  (PopKind.emit {} ((p.sums f).jit {}) p.code (.stack false) (.blk b)).getD []

/-- The snippets of the plans, with their places. -/
def snipAt (p : Small) : Func → Ev → Place → Code → State → W → Prop :=
  p.binary.SnippetAt {} (fun f => (p.sums f).jit {}) p.code p.plan

variable {p : Small}

theorem push_snip (h : p.Ok) (hh : p.height = some (-8)) {f : Func} (hf : f ∈ p.code.funcs) {b : Blk}
    (hm : (.blk b, .stack false 0 false) ∈ (p.plan f).pushes) {r : W} {s : State} (hr : s.regs .rsp = r) :
    p.snipAt f .push (.blk b) (p.pushAt f b) s r := by
  obtain ⟨c, hc, _⟩ := plan_pushes (p.binaryOk hh fun _ => .rax) h.built hf hm
  refine ⟨_, hm, ?_, (atHeight_blk hr).1⟩
  unfold pushAt
  rw [hc]; rfl

theorem check_snip (h : p.Ok) (hh : p.height = some (-8)) {f : Func} (hf : f ∈ p.code.funcs)
    (hcalls : NoCallAtCheck {} p.code (p.bfunc f)) {b : Blk}
    (hm : (.blk b, .stack false) ∈ (p.plan f).checks) {r : W} {s : State} (hr : s.regs .rsp = r) :
    p.snipAt f .check (.blk b) (p.checkAt f b) s r := by
  obtain ⟨c, hc, _⟩ := plan_checks (p.binaryOk hh fun _ => .rax) h.built hf hcalls hm
  refine ⟨_, hm, ?_, (atHeight_blk hr).2⟩
  unfold checkAt
  rw [hc]; rfl

end Small

/-- `goodProg` with instructions: `f0` returns at once, or calls `f1`, which jumps to `f2`. -/
def goodScript : Nat → ScriptOp
  | 0 => .go 1
  | 1 => .test .rbx 2 15
  | 2 => .snip (goodProg.pushAt 0 2) 3
  | 3 => .go 4
  | 4 => .call 0x402000 5
  | 5 => .snip (goodProg.pushAt 1 4) 6
  | 6 => .go 7
  | 7 => .snip (goodProg.checkAt 1 4) 8
  | 8 => .go 9
  | 9 => .snip (goodProg.pushAt 2 5) 10
  | 10 => .go 11
  | 11 => .snip (goodProg.checkAt 2 5) 12
  | 12 => .up 13
  | 13 => .go 14
  | 14 => .snip (goodProg.checkAt 0 3) 16
  | 15 => .up 17
  | 16 => .up 17
  | _ => .halt

def goodSp : Nat → W
  | 5 | 6 | 7 | 8 | 9 | 10 | 11 | 12 => 0x6ff8
  | 17 => 0x7008
  | _ => 0x7000

/-- The activation of `f0`, and those of its callees. -/
def base (t : List Ev) : XAct := ⟨0, t, 0x401000, 0x7000⟩

def upon (f : Func) (u t : List Ev) : List XAct := [⟨f, u, 0x402000, 0x6ff8⟩, base t]

def goodView : Nat → List XAct
  | 0 => [base []]
  | 1 | 2 => [base [.block 0]]
  | 3 => [base [.block 0, .push]]
  | 4 | 13 => [base [.block 0, .push, .block 2]]
  | 5 => upon 1 [] [.block 0, .push, .block 2]
  | 6 => upon 1 [.push] [.block 0, .push, .block 2]
  | 7 => upon 1 [.push, .block 4] [.block 0, .push, .block 2]
  | 8 => upon 1 [.push, .block 4, .check] [.block 0, .push, .block 2]
  | 9 => upon 2 [] [.block 0, .push, .block 2]
  | 10 => upon 2 [.push] [.block 0, .push, .block 2]
  | 11 => upon 2 [.push, .block 5] [.block 0, .push, .block 2]
  | 12 => upon 2 [.push, .block 5, .check] [.block 0, .push, .block 2]
  | 14 => [base [.block 0, .push, .block 2, .block 3]]
  | 15 => [base [.block 0, .block 1]]
  | 16 => [base [.block 0, .push, .block 2, .block 3, .check]]
  | _ => []

theorem sameSlots_refl (acts : List XAct) (s : State) : SameSlots acts s s := fun _ _ => rfl

theorem sameSlots_mem {acts : List XAct} {s s' : State} (h : s'.mem = s.mem) : SameSlots acts s s' :=
  fun _ _ => by rw [h]

theorem Small.callsF {p : Small} {f g : Func} {t : List Ev} {b : Blk} (e : Edge) (hc : b ∉ (p.plan f).checked)
    (hst : p.sem.trace f (t ++ [.block b])) (hg : g ∈ p.code.funcs)
    (he : e ∈ p.code.targets b) (hd : DirectCall p.code e g) : p.sem.calls f (t ++ [.block b]) g := by
  refine ⟨hg, .inl ⟨b, ⟨hst, ⟨t, .inl rfl⟩, ?_⟩, e, he, .inl hd⟩⟩
  rintro ⟨_, t', es, b', _, h⟩
  refine hc (Plan.checkAfter (c := p.code.entry f) (es := es) ?_)
  rw [← h]
  have := checkAfter_mid (b := b) t t'
  simpa using this

theorem goodScript_ok (k : Nat) :
    Scripted goodProg.sem goodProg.snipAt False goodSp goodView k (goodScript k) := by
  have tr0 : ∀ {t} (_ : t <+: [Ev.block 0, .push, .block 2, .block 3, .check]), goodProg.sem.trace 0 t := by
    intro t ht
    refine Small.starts (b' := 3) [goodProg.edges[1], goodProg.edges[3]] (by decide) (by decide) ?_
    rw [show goodProg.trace 0 [goodProg.edges[1], goodProg.edges[3]] =
      [Ev.block 0, .push, .block 2, .block 3, .check] by decide +kernel]
    exact ht
  have tr1 : ∀ {t} (_ : t <+: [Ev.push, .block 4, .check]), goodProg.sem.trace 1 t := by
    intro t ht
    refine Small.starts (b' := 4) [] (by decide) (by decide) ?_
    rw [show goodProg.trace 1 [] = [Ev.push, .block 4, .check] by decide +kernel]
    exact ht
  have tr2 : ∀ {t} (_ : t <+: [Ev.push, .block 5, .check]), goodProg.sem.trace 2 t := by
    intro t ht
    refine Small.starts (b' := 5) [] (by decide) (by decide) ?_
    rw [show goodProg.trace 2 [] = [Ev.push, .block 5, .check] by decide +kernel]
    exact ht
  have push : ∀ f b, f ∈ goodProg.code.funcs → (Place.blk b, PushKind.stack false 0 false) ∈ (goodProg.plan f).pushes →
      ∀ (r : W) (s : State), s.regs .rsp = r → goodProg.snipAt f .push (.blk b) (goodProg.pushAt f b) s r :=
    fun f b hf hm r s hr => Small.push_snip goodProg_ok rfl hf hm hr
  have check : ∀ f b, f ∈ goodProg.code.funcs → (Place.blk b, PopKind.stack false) ∈ (goodProg.plan f).checks →
      ∀ (r : W) (s : State), s.regs .rsp = r → goodProg.snipAt f .check (.blk b) (goodProg.checkAt f b) s r :=
    fun f b hf hm r s hr => Small.check_snip goodProg_ok rfl hf (goodProg_calls f hf) hm hr
  match k with
  | 0 => exact ⟨rfl, fun s => .block (a := base []) (tr0 (by decide)) (sameSlots_refl _ _)⟩
  | 1 =>
    refine ⟨⟨rfl, fun s => .work (sameSlots_refl _ _)⟩, rfl, fun s => .block (a := base [.block 0]) (b := 1) ?_ (sameSlots_refl _ _)⟩
    exact Small.starts (b' := 1) [goodProg.edges[0]] (by decide) (by decide) (by decide +kernel)
  | 2 => exact ⟨rfl, by decide, base [.block 0], [], .push, 2, nofun, rfl, rfl, tr0 (by decide),
      push 0 2 (by decide) (by decide +kernel) _⟩
  | 3 => exact ⟨rfl, fun s => .block (a := base [.block 0, .push]) (tr0 (by decide)) (sameSlots_refl _ _)⟩
  | 4 =>
    refine ⟨by decide, by decide, .inr ⟨by unfold GuardLike; decide, base [.block 0, .push, .block 2], [], 1, rfl, rfl, ?_⟩⟩
    exact Small.callsF (t := [.block 0, .push]) goodProg.edges[2] (by decide +kernel) (tr0 (by decide)) (by decide)
      (by decide) (Small.direct (by decide) (by decide) (by decide +kernel))
  | 5 => exact ⟨rfl, by decide, _, _, .push, 4, nofun, rfl, rfl, tr1 (by decide),
      push 1 4 (by decide) (by decide +kernel) _⟩
  | 6 => exact ⟨rfl, fun s => .block (a := ⟨1, [.push], 0x402000, 0x6ff8⟩) (tr1 (by decide)) (sameSlots_refl _ _)⟩
  | 7 => exact ⟨rfl, by decide, _, _, .check, 4, nofun, rfl, rfl, tr1 (by decide),
      check 1 4 (by decide) (by decide +kernel) _⟩
  | 8 =>
    refine ⟨rfl, fun s => .tail (a := ⟨1, [.push, .block 4, .check], 0x402000, 0x6ff8⟩)
      ⟨4, Small.ends [] (by decide) (by decide) (by decide) (by decide) (by decide +kernel)⟩ (.inl ?_) (sameSlots_refl _ _)⟩
    exact ⟨by decide, 4, Small.ends [] (by decide) (by decide) (by decide) (by decide) (by decide +kernel),
      goodProg.edges[6], by decide, Small.jumps (by decide) (by decide) (by decide) (by decide) (by decide +kernel)⟩
  | 9 => exact ⟨rfl, by decide, _, _, .push, 5, nofun, rfl, rfl, tr2 (by decide),
      push 2 5 (by decide) (by decide +kernel) _⟩
  | 10 => exact ⟨rfl, fun s => .block (a := ⟨2, [.push], 0x402000, 0x6ff8⟩) (tr2 (by decide)) (sameSlots_refl _ _)⟩
  | 11 => exact ⟨rfl, by decide, _, _, .check, 5, nofun, rfl, rfl, tr2 (by decide),
      check 2 5 (by decide) (by decide +kernel) _⟩
  | 12 => exact ⟨by decide, fun s s' e => .ret (a := ⟨2, [.push, .block 5, .check], 0x402000, 0x6ff8⟩)
      ⟨5, Small.ends [] (by decide) (by decide) (by decide) (by decide) (by decide +kernel)⟩ (sameSlots_mem e)⟩
  | 13 => exact ⟨rfl, fun s => .block (a := base [.block 0, .push, .block 2]) (tr0 (by decide)) (sameSlots_refl _ _)⟩
  | 14 => exact ⟨rfl, by decide, base [.block 0, .push, .block 2, .block 3], [], .check, 3, nofun, rfl, rfl,
      tr0 (by decide), check 0 3 (by decide) (by decide +kernel) _⟩
  | 15 => exact ⟨by decide, fun s s' e => .ret (a := base [.block 0, .block 1])
      ⟨1, Small.ends [goodProg.edges[0]] (by decide) (by decide) (by decide) (by decide) (by decide +kernel)⟩
      (sameSlots_mem e)⟩
  | 16 => exact ⟨by decide, fun s s' e => .ret (a := base [.block 0, .push, .block 2, .block 3, .check])
      ⟨3, Small.ends [goodProg.edges[1], goodProg.edges[3]] (by decide) (by decide) (by decide) (by decide)
        (by decide +kernel)⟩ (sameSlots_mem e)⟩
  | n + 17 => exact trivial

/-- The state at the beginning; two registers decide what the programs do. -/
def script0 (a b : W) : LogState := { demo0 with regs := [(.rsp, 0x7000), (.rax, a), (.rbx, b)] }

theorem script0_recorded (a b : W) : Recorded sigBase [] (script0 a b).state where
  gs := rfl
  pointer := demo0_recorded.pointer
  holds := ⟨fun i h => absurd h (Nat.not_lt_zero i), demo0_recorded.holds.2⟩
  guard := demo0_recorded.guard
  room := by decide

theorem script0_begins (a b : W) : ∀ x ∈ [base []], x.done = [] ∧
    (script0 a b).state.mem.read64 x.at_ = x.ra ∧ ¬ GuardLike x.ra := by
  intro x hx
  cases List.mem_singleton.1 hx
  exact ⟨rfl, cread_read (a := 0x7000) (l := demo0.log) (by decide), by unfold GuardLike; decide⟩

/-- The hypotheses of C104 are met. -/
theorem C104_example (a b : W) : (scriptGuest goodScript).Refines scriptBlind 0 (script0 a b).state := by
  refine C104_same_behaviour_partial (goodProg.binaryOk rfl fun _ => .rax) goodProg_ok.built goodProg_calls
    (view := goodView) (script_follows goodScript_ok rfl (script0_begins a b) ?_) (script_respects _ fun k => by unfold goodScript; split <;> exact id)
    (script0_recorded a b) ?_
  · intro k x hx
    have hr : ∀ f ∈ [0, 1, 2], ¬ goodProg.sem.inReg f := by
      change ∀ f ∈ [0, 1, 2], ¬ (useRegFrame {} (some (goodProg.sums f)) = true)
      decide +kernel
    refine hr _ ?_
    unfold goodView at hx
    split at hx <;> simp [upon, base] at hx <;> first | exact hx.elim | (rcases hx with rfl | rfl <;> simp) | (subst hx; simp)
  · intro tr k s _
    have : (goodView k).length ≤ 2 := by
      unfold goodView
      split <;> simp [upon]
    unfold regionSize
    omega

/-! ## A program which catches exceptions -/

/-- `catchProg` with instructions: `f1` throws or returns. -/
def catchScript : Nat → ScriptOp
  | 0 => .go 1
  | 1 => .test .rbx 2 15
  | 2 => .snip (catchProg.pushAt 0 2) 3
  | 3 => .go 4
  | 4 => .call 0x402000 5
  | 5 => .snip (catchProg.pushAt 1 5) 6
  | 6 => .go 7
  | 7 => .test .rax 8 12
  | 8 => .snip (catchProg.checkAt 1 5) 9
  | 9 => .up 10
  | 10 => .go 11
  | 11 => .snip (catchProg.checkAt 0 3) 17
  | 12 => .up 13
  | 13 => .go 14
  | 14 => .go 16
  | 15 => .up 18
  | 16 => .up 18
  | 17 => .up 18
  | _ => .halt

def catchSp : Nat → W
  | 5 | 6 | 7 | 8 | 9 | 12 => 0x6ff8
  | 18 => 0x7008
  | _ => 0x7000

def catchView : Nat → List XAct
  | 0 => [base []]
  | 1 | 2 => [base [.block 0]]
  | 3 => [base [.block 0, .push]]
  | 4 | 10 | 13 => [base [.block 0, .push, .block 2]]
  | 5 => upon 1 [] [.block 0, .push, .block 2]
  | 6 => upon 1 [.push] [.block 0, .push, .block 2]
  | 7 | 8 | 12 => upon 1 [.push, .block 5] [.block 0, .push, .block 2]
  | 9 => upon 1 [.push, .block 5, .check] [.block 0, .push, .block 2]
  | 11 => [base [.block 0, .push, .block 2, .block 3]]
  | 14 => [base [.block 0, .push, .block 2, .block 4]]
  | 15 => [base [.block 0, .block 1]]
  | 16 => [base [.block 0, .push, .block 2, .block 4, .block 3]]
  | 17 => [base [.block 0, .push, .block 2, .block 3, .check]]
  | _ => []

theorem catchScript_ok (k : Nat) :
    Scripted catchProg.excSem catchProg.snipAt True catchSp catchView k (catchScript k) := by
  have tr0 : ∀ {t} (_ : t <+: [Ev.block 0, .push, .block 2, .block 3, .check]), catchProg.excSem.trace 0 t := by
    intro t ht
    refine Small.startsX (b' := 3) [catchProg.edges[1], catchProg.edges[3]] (by decide) (by decide) ?_
    rw [show catchProg.trace 0 [catchProg.edges[1], catchProg.edges[3]] =
      [Ev.block 0, .push, .block 2, .block 3, .check] by decide +kernel]
    exact ht
  have tr3 : ∀ {t} (_ : t <+: [Ev.block 0, .push, .block 2, .block 4, .block 3]), catchProg.excSem.trace 0 t := by
    intro t ht
    refine Small.startsX (b' := 3) [catchProg.edges[1], catchProg.edges[4], catchProg.edges[7]] (by decide) (by decide) ?_
    rw [show catchProg.trace 0 [catchProg.edges[1], catchProg.edges[4], catchProg.edges[7]] =
      [Ev.block 0, .push, .block 2, .block 4, .block 3] by decide +kernel]
    exact ht
  have tr1 : ∀ {t} (_ : t <+: [Ev.push, .block 5, .check]), catchProg.excSem.trace 1 t := by
    intro t ht
    refine Small.startsX (b' := 5) [] (by decide) (by decide) ?_
    rw [show catchProg.trace 1 [] = [Ev.push, .block 5, .check] by decide +kernel]
    exact ht
  have push : ∀ f b, f ∈ catchProg.code.funcs → (Place.blk b, PushKind.stack false 0 false) ∈ (catchProg.plan f).pushes →
      ∀ (r : W) (s : State), s.regs .rsp = r → catchProg.snipAt f .push (.blk b) (catchProg.pushAt f b) s r :=
    fun f b hf hm r s hr => Small.push_snip catchProg_ok rfl hf hm hr
  have check : ∀ f b, f ∈ catchProg.code.funcs → (Place.blk b, PopKind.stack false) ∈ (catchProg.plan f).checks →
      ∀ (r : W) (s : State), s.regs .rsp = r → catchProg.snipAt f .check (.blk b) (catchProg.checkAt f b) s r :=
    fun f b hf hm r s hr => Small.check_snip catchProg_ok rfl hf (catchProg_calls f hf) hm hr
  match k with
  | 0 => exact ⟨rfl, fun s => .block (a := base []) (tr0 (by decide)) (sameSlots_refl _ _)⟩
  | 1 =>
    refine ⟨⟨rfl, fun s => .work (sameSlots_refl _ _)⟩, rfl, fun s => .block (a := base [.block 0]) (b := 1) ?_ (sameSlots_refl _ _)⟩
    exact Small.startsX (b' := 1) [catchProg.edges[0]] (by decide) (by decide) (by decide +kernel)
  | 2 => exact ⟨rfl, by decide, base [.block 0], [], .push, 2, nofun, rfl, rfl, tr0 (by decide),
      push 0 2 (by decide) (by decide +kernel) _⟩
  | 3 => exact ⟨rfl, fun s => .block (a := base [.block 0, .push]) (tr0 (by decide)) (sameSlots_refl _ _)⟩
  | 4 =>
    refine ⟨by decide, by decide, .inr ⟨by unfold GuardLike; decide, base [.block 0, .push, .block 2], [], 1, rfl, rfl, ?_⟩⟩
    exact Small.callsX (t := [.block 0, .push]) catchProg.edges[2] (by decide +kernel) (tr0 (by decide)) (by decide)
      (by decide) (Small.direct (by decide) (by decide) (by decide +kernel))
  | 5 => exact ⟨rfl, by decide, _, _, .push, 5, nofun, rfl, rfl, tr1 (by decide),
      push 1 5 (by decide) (by decide +kernel) _⟩
  | 6 => exact ⟨rfl, fun s => .block (a := ⟨1, [.push], 0x402000, 0x6ff8⟩) (tr1 (by decide)) (sameSlots_refl _ _)⟩
  | 7 => exact ⟨⟨rfl, fun s => .work (sameSlots_refl _ _)⟩, rfl, fun s => .work (sameSlots_refl _ _)⟩
  | 8 => exact ⟨rfl, by decide, _, _, .check, 5, nofun, rfl, rfl, tr1 (by decide),
      check 1 5 (by decide) (by decide +kernel) _⟩
  | 9 => exact ⟨by decide, fun s s' e => .ret (a := ⟨1, [.push, .block 5, .check], 0x402000, 0x6ff8⟩)
      (Small.endsX (b := 5) [] (by decide) (by decide) (by decide) (by decide) (by decide +kernel)) (sameSlots_mem e)⟩
  | 10 => exact ⟨rfl, fun s => .block (a := base [.block 0, .push, .block 2]) (tr0 (by decide)) (sameSlots_refl _ _)⟩
  | 11 => exact ⟨rfl, by decide, base [.block 0, .push, .block 2, .block 3], [], .check, 3, nofun, rfl, rfl,
      tr0 (by decide), check 0 3 (by decide) (by decide +kernel) _⟩
  | 12 => exact ⟨by decide, fun s s' e => .unwind (up := []) trivial (sameSlots_mem e)⟩
  | 13 => exact ⟨rfl, fun s => .block (a := base [.block 0, .push, .block 2]) (tr3 (by decide)) (sameSlots_refl _ _)⟩
  | 14 => exact ⟨rfl, fun s => .block (a := base [.block 0, .push, .block 2, .block 4]) (tr3 (by decide))
      (sameSlots_refl _ _)⟩
  | 15 => exact ⟨by decide, fun s s' e => .ret (a := base [.block 0, .block 1])
      (Small.endsX (b := 1) [catchProg.edges[0]] (by decide) (by decide) (by decide) (by decide) (by decide +kernel))
      (sameSlots_mem e)⟩
  | 16 => exact ⟨by decide, fun s s' e => .ret (a := base [.block 0, .push, .block 2, .block 4, .block 3])
      (Small.endsX (b := 3) [catchProg.edges[1], catchProg.edges[4], catchProg.edges[7]] (by decide) (by decide)
        (by decide) (by decide) (by decide +kernel)) (sameSlots_mem e)⟩
  | 17 => exact ⟨by decide, fun s s' e => .ret (a := base [.block 0, .push, .block 2, .block 3, .check])
      (Small.endsX (b := 3) [catchProg.edges[1], catchProg.edges[3]] (by decide) (by decide)
        (by decide) (by decide) (by decide +kernel)) (sameSlots_mem e)⟩
  | n + 18 => exact trivial

def catchBound : Nat → Nat
  | 0 | 1 | 2 => 0
  | 3 | 4 | 5 => 1
  | 6 | 7 | 8 => 2
  | 9 | 10 | 11 | 12 | 13 | 14 | 16 => 3
  | _ => 4

/-- The hypotheses of C104 with exceptions are met: the exception leaves the return addresses of both functions
on the shadow stack, and the program does what the original does. -/
theorem C104_example_unwinding (a b : W) :
    (scriptGuest catchScript).Refines scriptBlind 0 (script0 a b).state := by
  have hr : ∀ f ∈ [0, 1], ¬ catchProg.excSem.inReg f := by
    change ∀ f ∈ [0, 1], ¬ (useRegFrame {} (some (catchProg.sums f)) = true)
    decide +kernel
  refine C104_unwinding_partial (catchProg.binaryOk rfl fun _ => .rax) catchProg_ok.built catchProg_calls
    catchProg_ok.handlers (fun f hf hi => absurd hi (hr f hf))
    (view := catchView) (script_follows catchScript_ok rfl (script0_begins a b) ?_) (script_respects _ fun k => by unfold catchScript; split <;> exact id)
    (script0_recorded a b) ?_
  · intro k x hx
    refine hr _ ?_
    unfold catchView at hx
    split at hx <;> simp [upon, base] at hx <;> first | exact hx.elim | (rcases hx with rfl | rfl <;> simp) | (subst hx; simp)
  · intro l k s ht
    have h1 := script_tally catchBound (fun k => by
      match k with
      | 0 | 1 | 2 | 3 | 4 | 5 | 6 | 7 | 8 | 9 | 10 | 11 | 12 | 13 | 14 | 15 | 16 | 17 =>
        simp [catchScript, catchBound]
      | n + 18 => trivial) ht
    have h2 : catchBound k ≤ 4 := by
      unfold catchBound
      split <;> decide
    unfold regionSize
    omega

/-! ## The programs do something -/

/-- What the original does in `n` steps. -/
def bareRun (sc : Nat → ScriptOp) : Nat → Nat → State → List W × Nat × State
  | 0, k, s => ([], k, s)
  | n + 1, k, s => match sc k with
    | .snip _ k' => bareRun sc n k' s
    | _ => match scriptStep sc k s with
      | some (l, k', s') => ((l :: (bareRun sc n k' s').1), (bareRun sc n k' s').2)
      | none => ([], k, s)

theorem bareRun_run (sc : Nat → ScriptOp) {k0 : Nat} {s0 : State} (n : Nat) {k : Nat} {s : State} {tr : List W}
    (h : BareRun (scriptGuest sc) k0 s0 tr k s) :
    BareRun (scriptGuest sc) k0 s0 (tr ++ (bareRun sc n k s).1) (bareRun sc n k s).2.1 (bareRun sc n k s).2.2 := by
  induction n generalizing k s tr with
  | zero => simpa [bareRun] using h
  | succ n ih =>
    have own : ∀ l k' s', scriptStep sc k s = some (l, k', s') → BareRun (scriptGuest sc) k0 s0
        (tr ++ l :: (bareRun sc n k' s').1) (bareRun sc n k' s').2.1 (bareRun sc n k' s').2.2 := by
      intro l k' s' e
      have := ih (h.step (.own e))
      simpa using this
    unfold bareRun
    split
    · next c k' e =>
      have := ih (h.step (.pass (c := c) (k' := k') (by simp [scriptGuest, scriptSite, e])))
      simpa using this
    · split
      · next e => exact own _ _ _ e
      · simpa using h

theorem goodScript_runs : ∃ tr s, BareRun (scriptGuest goodScript) 0 (script0 0 0).state tr 17 s :=
  ⟨_, _, cast (by rw [show (bareRun goodScript 17 0 (script0 0 0).state).2.1 = 17 by decide +kernel])
    (bareRun_run goodScript 17 .start)⟩

/-- An exception is thrown and caught. -/
theorem catchScript_runs : ∃ tr s, BareRun (scriptGuest catchScript) 0 (script0 1 0).state tr 18 s :=
  ⟨_, _, cast (by rw [show (bareRun catchScript 12 0 (script0 1 0).state).2.1 = 18 by decide +kernel])
    (bareRun_run catchScript 12 .start)⟩

/-! ## A check before a call which does not return -/

/-- `f0` returns at once, or writes and calls `f1`, which does not return. -/
def coldProg : Small where
  blocks := [[0, 1, 2, 3], [4]]
  exits := [[3, 2], [4]]
  edges :=
    [{ id := 0, src := 0, trg := 3, type := .condTaken },
     { id := 1, src := 0, trg := 1, type := .condNotTaken },
     { id := 2, src := 1, trg := 2, type := .direct },
     { id := 3, src := 2, trg := 4, type := .call, interproc := true },
     retEdge 4 3, retEdge 5 4]
  danger := [1]
  lone := [3]
  height := none
  noret := [1]

theorem coldProg_ok : coldProg.Ok where
  sums := by decide +kernel
  plans := by decide +kernel
  addr := by decide +kernel
  oneCall := by decide +kernel
  entry := by decide +kernel
  closed := by decide +kernel
  ret := by decide +kernel
  exits := by decide +kernel
  handler := by decide +kernel
  nodup := by decide +kernel
  after := by decide +kernel
  resolved := by decide +kernel
  exitIn := by decide +kernel
  nodupEdges := by decide +kernel
  lone := by decide +kernel
  callOut := by decide +kernel

/-- Its instructions: block 1 pushes two registers. -/
def coldBinary : Binary where
  code b := if b = 1 then [(pushInsn 4112 .r15 8, pushSem .r15 8), (pushInsn 4114 .r14 8, pushSem .r14 8)]
    else coldProg.binary.code b
  hin _ b := if b = 2 then -24 else -8
  hout _ b := if b = 1 ∨ b = 2 then -24 else -8

theorem cold_code {b : Blk} (h : b ≠ 1) : coldBinary.code b = coldProg.binary.code b := by
  simp [coldBinary, h]

theorem cold_binaryOk (frame : Func → Reg) : BinaryOk coldBinary {} {} coldProg.code coldProg.info
    (fun _ => {}) coldProg.bfunc (fun _ => {}) frame := by
  have hB := ({ coldProg with height := some (-8) } : Small).binaryOk rfl frame
  exact {
    normal := hg_normal
    dead := fun _ _ => hg_dead
    frame := fun _ _ h => absurd rfl h
    start := fun _ _ _ => rfl
    starts := hB.starts
    entryScan := fun _ _ _ _ => nofun
    fixedScan := fun _ _ _ _ => nofun
    exitScan := fun _ _ _ _ => nofun
    before := fun b q hq => by
      by_cases h : b = 1
      · subst h
        simp only [coldBinary, if_true, List.mem_cons, List.not_mem_nil, or_false] at hq
        rcases hq with rfl | rfl <;> exact ⟨push_lawful _ _ _, fun _ => push_push8 _, fun h => absurd rfl h⟩
      · rw [cold_code h] at hq
        exact hB.before b q hq
    after := fun b q hq => by
      by_cases h : b = 1
      · subst h
        have hq : q ∈ [(pushInsn 4112 .r15 8, pushSem .r15 8), (pushInsn 4114 .r14 8, pushSem .r14 8)] := hq
        simp only [List.mem_cons, List.not_mem_nil, or_false] at hq
        rcases hq with rfl | rfl <;> exact ⟨push_lawful _ _ _, nofun, nofun, fun _ h => absurd h (by decide)⟩
      · rw [cold_code h] at hq
        exact hB.after b q hq
    short := fun b => by
      by_cases h : b = 1
      · subst h; decide
      · rw [cold_code h]; exact hB.short b
    ends := fun b => by
      by_cases h : b = 1
      · subst h
        refine ⟨fun q hq => ?_, .inl rfl⟩
        have hq : q ∈ [(pushInsn 4112 .r15 8, pushSem .r15 8), (pushInsn 4114 .r14 8, pushSem .r14 8)] := hq
        simp only [List.mem_cons, List.not_mem_nil, or_false] at hq
        rcases hq with rfl | rfl <;> nofun
      · rw [cold_code h]; exact hB.ends b
    addrs := fun b => by
      by_cases h : b = 1
      · subst h; decide
      · rw [cold_code h]; exact hB.addrs b
    heightIn := fun _ _ _ _ _ => nofun
    heightOut := fun _ _ _ _ _ => nofun
    entry := fun f hf => by
      have : ∀ f ∈ coldProg.code.funcs, coldBinary.hin f (coldProg.code.entry f) = -8 := by decide +kernel
      exact this f hf
    exit := fun f hf b hb => by
      have : ∀ f ∈ coldProg.code.funcs, ∀ b ∈ coldProg.code.exitBlocks f,
        isNonreturningCall (coldProg.code.targets b) = false → coldBinary.hout f b = -8 := by decide +kernel
      exact this f hf b hb
    edges := fun f hf => by
      have h1 : ∀ f ∈ coldProg.code.funcs, ∀ e ∈ coldProg.edges, Flow e →
        coldBinary.hin f e.trg + 8 = coldBinary.hout f e.src + 8 := by decide +kernel
      refine ⟨fun b _ e he => ?_, fun b hb => ?_⟩
      · have he' : e ∈ (coldProg.edges.filter fun e => e.src = b).filter fun e => Flow e := he
        simp only [List.mem_filter, decide_eq_true_eq] at he'
        rw [← he'.1.2]
        exact h1 f hf e he'.1.1 he'.2
      · have hb : (if b ∈ [3] then [true] else [false, true]) = [true] := hb
        split at hb
        · next h =>
          rw [List.mem_singleton.1 h]
          rfl
        · cases hb }

/-- The snippets of its plan, with their places. -/
def coldSnip : Func → Ev → Place → Code → State → W → Prop :=
  coldBinary.SnippetAt {} (fun f => (coldProg.sums f).jit {}) coldProg.code coldProg.plan

/-- What `f0` does if it writes. -/
def coldScript : Nat → ScriptOp
  | 0 => .go 1
  | 1 => .snip demoPush 2
  | 2 => .go 3
  | 3 => .call 5 4
  | 4 => .call 6 5
  | 5 => .go 6
  | 6 => .snip demoCheck 7
  | 7 => .go 8
  | _ => .halt

def coldSp : Nat → W
  | 0 | 1 | 2 | 3 => 0x7000
  | 4 => 0x6ff8
  | _ => 0x6ff0

def coldView : Nat → List XAct
  | 0 => [base []]
  | 1 => [base [.block 0]]
  | 2 => [base [.block 0, .push]]
  | 3 | 4 | 5 => [base [.block 0, .push, .block 1]]
  | 6 => [base [.block 0, .push, .block 1, .block 2]]
  | _ => [base [.block 0, .push, .block 1, .block 2, .check]]

theorem coldScript_ok (k : Nat) :
    Scripted coldProg.sem coldSnip False coldSp coldView k (coldScript k) := by
  have tr0 : ∀ {t} (_ : t <+: [Ev.block 0, .push, .block 1, .block 2, .check]), coldProg.sem.trace 0 t := by
    intro t ht
    refine Small.starts (b' := 2) [coldProg.edges[1], coldProg.edges[2]] (by decide) (by decide) ?_
    rw [show coldProg.trace 0 [coldProg.edges[1], coldProg.edges[2]] =
      [Ev.block 0, .push, .block 1, .block 2, .check] by decide +kernel]
    exact ht
  match k with
  | 0 => exact ⟨rfl, fun s => .block (a := base []) (tr0 (by decide)) (sameSlots_refl _ _)⟩
  | 1 =>
    refine ⟨rfl, by decide, base [.block 0], [], .push, 1, nofun, rfl, rfl, tr0 (by decide), fun s hs =>
      ⟨.stack false 0 false, by decide +kernel, by decide +kernel, ?_⟩⟩
    show AtHeight 0x7000 (-8) s
    unfold AtHeight; rw [hs]; decide
  | 2 => exact ⟨rfl, fun s => .block (a := base [.block 0, .push]) (tr0 (by decide)) (sameSlots_refl _ _)⟩
  | 3 => exact ⟨by decide, by decide, .inl rfl⟩
  | 4 => exact ⟨by decide, by decide, .inl rfl⟩
  | 5 => exact ⟨rfl, fun s => .block (a := base [.block 0, .push, .block 1]) (tr0 (by decide)) (sameSlots_refl _ _)⟩
  | 6 =>
    refine ⟨rfl, by decide, base [.block 0, .push, .block 1, .block 2], [], .check, 2, nofun, rfl, rfl,
      tr0 (by decide), fun s hs => ⟨.stack false, by decide +kernel, by decide +kernel, ?_⟩⟩
    show AtHeight 0x7000 (-24) s
    unfold AtHeight; rw [hs]; decide
  | 7 => exact ⟨rfl, fun s => .work (sameSlots_refl _ _)⟩
  | n + 8 => exact trivial

/-- After a word has been stored below the stack pointer. -/
def LogState.down (c : LogState) (v : W) : LogState :=
  { c.set .rsp (c.reg .rsp - 8) with log := (c.reg .rsp - 8, v) :: c.log }

theorem down_step {sc : Nat → ScriptOp} {c : LogState} {v : W} {k k' : Nat} (h : sc k = .call v k')
    (hc : 0x6100 ≤ (c.reg .rsp).toNat ∧ (c.reg .rsp).toNat ≤ 0x7000) :
    (scriptGuest sc).step k c.state 0 k' (c.down v).state := by
  show scriptStep sc k c.state = _
  have e : (c.down v).state = { c.state.set .rsp (c.reg .rsp - 8) with
      mem := c.state.mem.write64 (c.reg .rsp - 8) v } := by
    rw [← LogState.state_set]; rfl
  unfold scriptStep
  rw [h, e]
  exact if_pos hc

def cold1 : LogState := after demoPush 9 demoPush (script0 0 0)

def cold2 : LogState := (cold1.down 5).down 6

/-- The check finds something else than the return address. -/
theorem cold_killed : ArmedRun (scriptGuest coldScript) 0 (script0 0 0).state [0, 0, 0, 0, 0] .killed := by
  have e1 := after_crun (w := demoPush) (k := demoPush) (k' := []) (n := 9) (c := script0 0 0) (by decide +kernel)
  have e2 := after_crun (w := demoCheck) (k := demoCheck) (k' := demoCheck.drop 13) (n := 19)
    (c := cold2) (by decide +kernel)
  have r1 : ArmedRun (scriptGuest coldScript) 0 (script0 0 0).state _ _ := .step .start (.own (k' := 1) rfl)
  have r2 := r1.step (.snip (k' := 2) rfl (crun_exits e1))
  have r3 := r2.step (.own (k' := 3) (s' := cold1.state) rfl)
  have r4 := r3.step (.own (down_step (c := cold1) (k := 3) rfl (by decide +kernel)))
  have r5 := r4.step (.own (down_step (c := cold1.down 5) (k := 4) rfl (by decide +kernel)))
  have r6 := r5.step (.own (k' := 6) (s' := cold2.state) rfl)
  exact r6.step (.trap rfl (crun_traps (c := cold2) (k := demoCheck.drop 14) e2))

/-- **C104 fails for functions of the fast path which call functions that do not return**: the check before
such a call looks for the return address at the wrong place, and the program is killed although the original
goes on. -/
theorem C104_refuted_nonreturning : ∃ B co info R T bf plan dead frame D view g s0, ∃ P : Guest Nat W,
    BinaryOk B {} {} co info R bf dead frame ∧ Built {} [] co info R T bf plan ∧
    P.Follows (semOf co info plan (inRegOf {} T) (staysOf bf)) frame
      (B.SnippetAt {} (fun f => (T f).jit (dead f)) co plan) (B.Spoils {} co dead) D view False g 0 s0 ∧
    P.Respects D g 0 s0 ∧ Recorded g [] s0 ∧
    (∀ tr k s, BareRun P 0 s0 tr k s → 40 + 8 * (view k).length ≤ regionSize) ∧
    (∃ tr s, BareRun P 0 s0 tr 8 s) ∧ ∃ tr, ArmedRun P 0 s0 tr .killed := by
  refine ⟨coldBinary, coldProg.code, coldProg.info, fun _ => {}, coldProg.sums, coldProg.bfunc, coldProg.plan,
    fun _ => {}, fun _ => .rax, scriptBlind, coldView, sigBase, (script0 0 0).state, scriptGuest coldScript,
    cold_binaryOk _, coldProg_ok.built, script_follows coldScript_ok rfl (script0_begins 0 0) ?_,
    (script_respects _ fun k => by unfold coldScript; split <;> exact id), script0_recorded 0 0, fun _ k _ _ => ?_, ?_, _, cold_killed⟩
  · intro k x hx
    have hr : ¬ coldProg.sem.inReg 0 := by
      change ¬ (useRegFrame {} (some (coldProg.sums 0)) = true)
      decide +kernel
    have : x.func = 0 := by
      unfold coldView at hx
      split at hx <;> (cases List.mem_singleton.1 hx; rfl)
    rw [this]
    exact hr
  · have : (coldView k).length = 1 := by
      unfold coldView
      split <;> rfl
    rw [this]
    decide
  · exact ⟨_, _, cast (by rw [show (bareRun coldScript 8 0 (script0 0 0).state).2.1 = 8 by decide +kernel])
      (bareRun_run coldScript 8 .start)⟩

end Verif
