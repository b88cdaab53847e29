import Verif.Props.RefineLive
import Verif.Props.RefineExamples

/-! Simple programs of instructions, for examples. -/

namespace Verif

/-! ## Scripts -/

/-- One instruction of a simple program, and where it leads. -/
inductive ScriptOp
  | snip (c : Code) (k : Nat)
  | go (k : Nat)
  /-- show a register, and jump if it is zero -/
  | test (r : Reg) (k1 k2 : Nat)
  /-- load a constant into a register other than the stack pointer -/
  | set (r : Reg) (v : W) (k : Nat)
  /-- show a register, and copy it to the flags -/
  | cmp (r : Reg) (k : Nat)
  /-- on the flags -/
  | jz (k1 k2 : Nat)
  /-- store a word and move the stack pointer down -/
  | call (v : W) (k : Nat)
  /-- show the word at the stack pointer and move this up -/
  | up (k : Nat)
  | halt

/-- The stack. -/
def InStack (s : State) : Prop := 0x6100 ≤ (s.regs .rsp).toNat ∧ (s.regs .rsp).toNat ≤ 0x7000

instance (s : State) : Decidable (InStack s) := inferInstanceAs (Decidable (_ ∧ _))

/-- What an instruction does. -/
def ScriptOp.step (s : State) : ScriptOp → Option (W × Nat × State)
  | .go k' => some (0, k', s)
  | .test r k1 k2 => some (s.regs r, if s.regs r = 0 then k1 else k2, s)
  | .set r v k' => if r = .rsp then none else some (0, k', s.set r v)
  | .cmp r k' => some (s.regs r, k', { s with flags := s.regs r })
  | .jz k1 k2 => some (0, if s.flags = 0 then k1 else k2, s)
  | .call v k' => if InStack s then
      some (0, k', { s.set .rsp (s.regs .rsp - 8) with mem := s.mem.write64 (s.regs .rsp - 8) v })
    else none
  | .up k' => if InStack s then
      some (s.mem.read64 (s.regs .rsp), k', s.set .rsp (s.regs .rsp + 8))
    else none
  | .snip _ _ | .halt => none

/-- What the instructions of the program do. -/
def scriptStep (sc : Nat → ScriptOp) (k : Nat) (s : State) : Option (W × Nat × State) := (sc k).step s

def scriptSite (sc : Nat → ScriptOp) (k : Nat) : Option (Code × Nat) :=
  match sc k with
  | .snip c k' => some (c, k')
  | _ => none

def scriptGuest (sc : Nat → ScriptOp) : Guest Nat W where
  step k s l k' s' := scriptStep sc k s = some (l, k', s')
  site := scriptSite sc

/-! ## As instructions which declare what they read and write -/

def ScriptOp.uses : ScriptOp → Reg → Prop
  | .test r _ _, x | .cmp r _, x => x = r
  | .call _ _, x | .up _, x => x = .rsp
  | _, _ => False

def ScriptOp.sets : ScriptOp → Reg → Prop
  | .set r _ _, x => x = r
  | .call _ _, x | .up _, x => x = .rsp
  | _, _ => False

def ScriptOp.usesFlags : ScriptOp → Prop
  | .jz _ _ => True
  | _ => False

def ScriptOp.setsFlags : ScriptOp → Prop
  | .cmp _ _ => True
  | _ => False

def ScriptOp.act (o : ScriptOp) : Action Nat W where
  run s l := match o.step s with
    | some (l', k, s') => if l' = l then some (k, s') else none
    | none => none
  uses := o.uses
  writes := o.sets
  sets := o.sets
  usesFlags := o.usesFlags
  setsFlags := o.setsFlags
  loads s a := match o with
    | .up _ => InStack s ∧ InRange a (s.regs .rsp) 8
    | _ => False
  stores s a := match o with
    | .call _ _ => InStack s ∧ InRange a (s.regs .rsp - 8) 8
    | _ => False

theorem ScriptOp.fair (o : ScriptOp) : o.act.Fair where
  keep s l k' s' h := by
    have h' : ∃ l', o.step s = some (l', k', s') := by
      simp only [act] at h
      split at h
      · next l' k1 s1 e =>
        split at h
        · cases h; exact ⟨l', e⟩
        · cases h
      · cases h
    obtain ⟨l', h'⟩ := h'
    cases o with
    | snip c k | halt => cases h'
    | go k | test r k1 k2 | cmp r k | jz k1 k2 => cases h'; exact ⟨rfl, fun _ _ => rfl, fun _ _ => rfl⟩
    | set r v k =>
      simp only [step] at h'
      split at h'
      · cases h'
      · cases h'
        exact ⟨rfl, fun x hx => if_neg hx, fun _ _ => rfl⟩
    | call v k =>
      simp only [step] at h'
      split at h'
      · next hi =>
        cases h'
        exact ⟨rfl, fun x hx => if_neg hx, fun a ha => write64_outRange _ _ _ _ fun hw => ha ⟨hi, hw⟩⟩
      · cases h'
    | up k =>
      simp only [step] at h'
      split at h'
      · cases h'
        exact ⟨rfl, fun x hx => if_neg hx, fun _ _ => rfl⟩
      · cases h'
  dep X F A s t hst hu hf hl := by
    have one : ∀ {l' l : W} {k : Nat} {s' t' : State} {X' : Reg → Prop} {F' : Prop} {A' : W → Prop}, Near X' F' A' s' t' →
        SameResult X' F' A' (if l' = l then some (k, s') else none) (if l' = l then some (k, t') else none) := by
      intro l' l k s' t' X' F' A' h
      split
      · exact ⟨rfl, h⟩
      · trivial
    have reg : ∀ r, o.uses r → t.regs r = s.regs r := fun r h => hst.regs r fun hx => hu r hx h
    cases o with
    | snip c k | halt => exact ⟨fun _ => Iff.rfl, fun _ => trivial⟩
    | go k =>
      refine ⟨fun _ => Iff.rfl, fun l => one ?_⟩
      exact ⟨fun r h => hst.regs r fun hx => h ⟨hx, id⟩, fun h => hst.flags fun hx => h ⟨hx, id⟩, hst.gs,
        fun a h => hst.mem a fun hx => h ⟨hx, id⟩⟩
    | test r k1 k2 =>
      refine ⟨fun _ => Iff.rfl, fun l => ?_⟩
      simp only [act, step, reg r rfl]
      refine one ?_
      exact ⟨fun r h => hst.regs r fun hx => h ⟨hx, id⟩, fun h => hst.flags fun hx => h ⟨hx, id⟩, hst.gs,
        fun a h => hst.mem a fun hx => h ⟨hx, id⟩⟩
    | jz k1 k2 =>
      refine ⟨fun _ => Iff.rfl, fun l => ?_⟩
      have : t.flags = s.flags := hst.flags fun h => hf h trivial
      simp only [act, step, this]
      refine one ?_
      exact ⟨fun r h => hst.regs r fun hx => h ⟨hx, id⟩, fun h => hst.flags fun hx => h ⟨hx, id⟩, hst.gs,
        fun a h => hst.mem a fun hx => h ⟨hx, id⟩⟩
    | cmp r k =>
      refine ⟨fun _ => Iff.rfl, fun l => ?_⟩
      simp only [act, step, reg r rfl]
      refine one ?_
      exact ⟨fun r h => hst.regs r fun hx => h ⟨hx, id⟩, fun h => rfl, hst.gs,
        fun a h => hst.mem a fun hx => h ⟨hx, id⟩⟩
    | set r v k =>
      refine ⟨fun _ => Iff.rfl, fun l => ?_⟩
      simp only [act, step]
      by_cases hr : r = .rsp
      · rw [if_pos hr, if_pos hr]
        trivial
      · rw [if_neg hr, if_neg hr]
        refine one ⟨fun x h => ?_, fun h => hst.flags fun hx => h ⟨hx, id⟩, hst.gs,
          fun a h => hst.mem a fun hx => h ⟨hx, id⟩⟩
        simp only [State.set]
        split
        · rfl
        · next hx => exact hst.regs x fun hX => h ⟨hX, hx⟩
    | call v k =>
      have hr := reg .rsp rfl
      have hi : InStack t ↔ InStack s := by unfold InStack; rw [hr]
      refine ⟨fun a => by simp only [act, hi, hr], fun l => ?_⟩
      simp only [act, step]
      by_cases h : InStack s
      · rw [if_pos (hi.2 h), if_pos h]
        refine one ⟨fun x hx => ?_, fun h => hst.flags fun hx => h ⟨hx, id⟩, hst.gs, fun a ha => ?_⟩
        · simp only [State.set]
          split
          · rw [hr]
          · next hne => exact hst.regs x fun hX => hx ⟨hX, hne⟩
        · show t.mem.write64 _ _ a = s.mem.write64 _ _ a
          rw [hr]
          by_cases hi : InRange a (s.regs .rsp - 8) 8
          · simp only [Mem.write64]
            unfold InRange at hi
            rw [if_pos hi, if_pos hi]
          · rw [write64_outRange _ _ _ _ hi, write64_outRange _ _ _ _ hi]
            exact hst.mem a fun hA => ha ⟨hA, fun hh => hi hh.2⟩
      · rw [if_neg (mt hi.1 h), if_neg h]
        trivial
    | up k =>
      have hr := reg .rsp rfl
      have hi : InStack t ↔ InStack s := by unfold InStack; rw [hr]
      refine ⟨fun a => Iff.rfl, fun l => ?_⟩
      simp only [act, step]
      by_cases h : InStack s
      · rw [if_pos (hi.2 h), if_pos h, hr]
        have : t.mem.read64 (s.regs .rsp) = s.mem.read64 (s.regs .rsp) :=
          read64_congr _ _ _ fun j hj => hst.mem _ (hl j ⟨h, hj⟩)
        rw [this]
        refine one ⟨fun x hx => ?_, fun h => hst.flags fun hx => h ⟨hx, id⟩, hst.gs,
          fun a h => hst.mem a fun hx => h ⟨hx, id⟩⟩
        simp only [State.set]
        split
        · rfl
        · next hne => exact hst.regs x fun hX => hx ⟨hX, hne⟩
      · rw [if_neg (mt hi.1 h), if_neg h]
        trivial

theorem scriptGuest_eq (sc : Nat → ScriptOp) :
    scriptGuest sc = guestOf (fun k => some (sc k).act) (scriptSite sc) := by
  unfold scriptGuest guestOf
  congr 1
  funext k s l k' s'
  simp only [Option.some.injEq, exists_eq_left', eq_iff_iff, ScriptOp.act]
  unfold scriptStep
  split
  · next l' k1 s1 e =>
    rw [e]
    constructor
    · intro h; cases h; exact if_pos rfl
    · intro h
      split at h
      · next hl => cases h; rw [hl]
      · cases h
  · next e => rw [e]; exact ⟨nofun, nofun⟩

/-- What the programs do not look at: these registers, the flags, and anything below the stack pointer. -/
def liveBlind (regs : Nat → List Reg) (flags : Nat → Bool) : Blind Nat where
  regs k r := r ∈ regs k
  flags k := flags k = true
  mem _ sp x := InRange x sigBase regionSize ∨ 0x6000 ≤ x.toNat ∧ x.toNat < sp.toNat
  frame _ := none

/-- Where it may lead. -/
def ScriptOp.leads : ScriptOp → Nat → Prop
  | .halt, _ => False
  | .test _ k1 k2, k | .jz k1 k2, k => k = k1 ∨ k = k2
  | .snip _ k1, k | .go k1, k | .set _ _ k1, k | .cmp _ k1, k | .call _ k1, k | .up k1, k => k = k1

/-- The equations of live variables. -/
def ScriptLive (regs : Nat → List Reg) (flags : Nat → Bool) (k : Nat) (o : ScriptOp) : Prop :=
  .rsp ∉ regs k ∧ (∀ r ∈ regs k, ¬ o.uses r) ∧ (flags k = true → ¬ o.usesFlags) ∧
  ∀ k', o.leads k' → (∀ r ∈ regs k, o.sets r ∨ r ∈ regs k') ∧ (flags k = true → o.setsFlags ∨ flags k' = true)

/-- Where it goes, and what becomes of the stack. -/
theorem ScriptOp.step_leads {o : ScriptOp} {s s' : State} {l : W} {k' : Nat} (h : o.step s = some (l, k', s')) :
    o.leads k' ∧ ∀ a : W, 0x6000 ≤ a.toNat → a.toNat < (s.regs .rsp).toNat → ¬ o.act.stores s a →
      a.toNat < (s'.regs .rsp).toNat := by
  cases o with
  | snip c k | halt => cases h
  | go k | cmp r k => cases h; exact ⟨rfl, fun _ _ h _ => h⟩
  | test r k1 k2 | jz k1 k2 =>
    cases h
    refine ⟨?_, fun _ _ h _ => h⟩
    simp only [leads]
    split
    · exact .inl rfl
    · exact .inr rfl
  | set r v k =>
    simp only [step] at h
    split at h
    · cases h
    · next hr =>
      cases h
      refine ⟨rfl, fun _ _ h _ => ?_⟩
      simp only [State.set]
      rw [if_neg (Ne.symm hr)]
      exact h
  | call v k =>
    simp only [step] at h
    split at h
    · next hi =>
      cases h
      refine ⟨rfl, fun a h1 h2 h3 => ?_⟩
      have h3 : ¬ InRange a (s.regs .rsp - 8) 8 := fun h => h3 ⟨hi, h⟩
      obtain ⟨h4, h5⟩ := hi
      show a.toNat < (s.regs .rsp - 8).toNat
      unfold InRange at h3
      bv_omega
    · cases h
  | up k =>
    simp only [step] at h
    split at h
    · next hi =>
      cases h
      refine ⟨rfl, fun a h1 h2 _ => ?_⟩
      obtain ⟨h4, h5⟩ := hi
      show a.toNat < (s.regs .rsp + 8).toNat
      bv_omega
    · cases h

theorem script_visible {regs : Nat → List Reg} {flags : Nat → Bool} {k : Nat} {p : W} (h1 : 0x6000 ≤ p.toNat)
    (h2 : p.toNat ≤ 0x7000) {x sp : W} (hs : sp ≤ p) (hx : InRange x p 8) : ¬ (liveBlind regs flags).mem k sp x := by
  rintro (hb | hb)
  · unfold InRange sigBase regionSize at *
    bv_omega
  · unfold InRange at hx
    bv_omega

theorem script_loses {sc : Nat → ScriptOp} {regs : Nat → List Reg} {flags : Nat → Bool}
    (h : ∀ k, ScriptLive regs flags k (sc k)) {k0 : Nat} {s0 : State} :
    Loses (fun k => some (sc k).act) (scriptSite sc) (liveBlind regs flags) sigBase k0 s0 := by
  refine ⟨?_, fun _ _ _ hx => .inl hx, ?_, ?_, ?_⟩
  · rintro k (hh | hh)
    · exact (h k).1 hh
    · cases hh
  · intro tr k s o _ e
    cases e
    refine ⟨(h k).2.1, (h k).2.2.1, fun a ha => ?_⟩
    cases e : sc k with
    | up k1 =>
      rw [e] at ha
      exact script_visible (Nat.le_trans (by decide) ha.1.1) ha.1.2 (BitVec.le_refl _) ha.2
    | _ => rw [e] at ha; exact ha.elim
  · intro tr k s o _ e
    cases e
    refine ⟨nofun, fun a ha => ?_⟩
    cases e : sc k with
    | call v k1 =>
      rw [e] at ha
      obtain ⟨⟨h1, h2⟩, h3⟩ := ha
      unfold InRange sigBase regionSize at *
      bv_omega
    | _ => rw [e] at ha; exact ha.elim
  · intro tr k s o l k' s' _ e hs
    cases e
    obtain ⟨_, _, _, h4⟩ := h k
    have h' : ∃ l', (sc k).step s = some (l', k', s') := by
      simp only [ScriptOp.act] at hs
      split at hs
      · next l' k1 s1 e =>
        split at hs
        · cases hs; exact ⟨l', e⟩
        · cases hs
      · cases hs
    obtain ⟨l', h'⟩ := h'
    obtain ⟨h5, h6⟩ := ScriptOp.step_leads h'
    obtain ⟨h7, h8⟩ := h4 k' h5
    refine ⟨fun r hr hn => (h7 r hr).resolve_left hn, fun hf hn => (h8 hf).resolve_left hn, fun a ha hn => ?_, rfl⟩
    rcases ha with ha | ha
    · exact .inl ha
    · exact .inr ⟨ha.1, h6 a ha.1 ha.2 hn⟩

theorem script_respects_live {sc : Nat → ScriptOp} {regs : Nat → List Reg} {flags : Nat → Bool}
    (h : ∀ k, ScriptLive regs flags k (sc k)) {k0 : Nat} {s0 : State} :
    (scriptGuest sc).Respects (liveBlind regs flags) sigBase k0 s0 := by
  rw [scriptGuest_eq]
  exact C106_respects (fun k o e => by cases e; exact (sc k).fair) (script_loses h)

/-- The programs do not look at the flags, nor below the stack pointer. -/
def scriptBlind : Blind Nat := liveBlind (fun _ => []) fun _ => true

theorem script_respects (sc : Nat → ScriptOp) (hj : ∀ k, ¬ (sc k).usesFlags) {k0 : Nat} {s0 : State} :
    (scriptGuest sc).Respects scriptBlind sigBase k0 s0 :=
  script_respects_live fun k => ⟨List.not_mem_nil, fun _ h => absurd h List.not_mem_nil, fun _ => hj k,
    fun _ _ => ⟨fun _ h => absurd h List.not_mem_nil, fun _ => .inr rfl⟩⟩

end Verif
