import Verif.Props.Refine
import Verif.Props.PlanMachine
import Verif.Props.UnwindMachine
import Verif.RefinePlan

/-!
# Instrumented programs do what the originals do: programs made of functions
-/

namespace Verif

/-- What is needed of the functions: a check comes after a push, and only `loose` programs push again or leave
between push and check. -/
structure InOrder (m : ProgSem) (loose : Prop) : Prop where
  push : ∀ f t, m.trace f (t ++ [.push]) → .push ∈ t ∨ .check ∈ t → loose ∧ ¬ m.inReg f
  check : ∀ f t, m.trace f (t ++ [.check]) → IsOpen t
  complete : ∀ f t, m.complete f t → IsOpen t → loose

theorem InOrder.mono {m : ProgSem} {l l' : Prop} (h : InOrder m l) (hl : l → l') : InOrder m l' :=
  ⟨fun f t h1 h2 => (h.push f t h1 h2).imp_left hl, h.check, fun f t h1 h2 => hl (h.complete f t h1 h2)⟩

theorem Sound.ordered {m : ProgSem} {writes : Func → Prop} (h : Sound m writes) (loose : Prop) :
    InOrder m loose :=
  ⟨fun f t h1 h2 => (h2.elim (h.push f t h1).1 (h.push f t h1).2.1).elim, h.check,
    fun f t h1 h2 => (h.complete f t h1 h2).elim⟩

/-- An activation without the machine. -/
def XAct.plain (a : XAct) : Act := ⟨a.func, a.done, a.ra, a.ra, none⟩

/-- The innermost activation uses its frame register. -/
def Leafy (m : ProgSem) (acts : List XAct) (v : W) : Prop :=
  ∃ a as, acts = a :: as ∧ m.inReg a.func ∧ IsOpen a.done ∧ v = a.ra

/-- What the shadow stack may hold of abandoned activations. -/
def Stale (loose : Prop) (v : W) : Prop := loose ∧ ¬ GuardLike v

/-- The invariant. -/
structure GInv (m : ProgSem) (loose : Prop) (b : Book) (acts : List XAct) (s : State) : Prop where
  slots : ∀ a ∈ acts, s.mem.read64 a.at_ = a.ra
  tame : loose → ∀ a ∈ acts, ¬ GuardLike a.ra
  pend : amid m (Stale loose) (acts.map XAct.plain) b.pend
  leaf : ∀ v, b.leaf = some v ↔ Leafy m acts v
  callers : ∀ a ∈ acts.tail, ¬ (m.inReg a.func ∧ IsOpen a.done)

theorem not_open_nil : ¬ IsOpen [] := fun h => nomatch h.1

theorem SameSlots.mono {acts acts' : List XAct} {s s' : State} (h : SameSlots acts s s')
    (hs : ∀ x ∈ acts', x ∈ acts) : SameSlots acts' s s' := fun x hx => h x (hs x hx)

section
variable {m : ProgSem} {loose : Prop} {b : Book} {acts acts' : List XAct} {s s' : State}

/-- Without abandoned activations the shadow stack is no longer than the stack. -/
theorem amid_length (hl : ¬ loose) : ∀ {acts : List Act} {l : List W}, amid m (Stale loose) acts l →
    l.length ≤ acts.length := by
  intro acts
  induction acts with
  | nil =>
    intro l h
    cases l with
    | nil => exact Nat.le_refl _
    | cons v l => exact absurd (h v (by simp)).1 hl
  | cons a as ih =>
    intro l h
    rcases h with ⟨_, _, j, l', rfl, hj, h⟩ | ⟨_, h⟩
    · cases j with
      | nil => simpa using ih h
      | cons v j => exact absurd (hj v (by simp)).1 hl
    · exact Nat.le_trans (ih h) (by simp)

/-- A step of the original keeps it, if the use of the frame register does not change. -/
theorem GInv.move (hO : InOrder m loose) (h : GInv m loose b acts s) (hm : Moves m loose acts s acts' s')
    (hfr : (∃ v, Leafy m acts v) ↔ ∃ v, Leafy m acts' v) : GInv m loose b acts' s' := by
  have hopen : ∀ {x : XAct}, loose → x ∈ acts → Stale loose x.ra := fun hl hx => ⟨hl, h.tame hl _ hx⟩
  cases hm with
  | work hs => exact ⟨fun a ha => (hs a ha).trans (h.slots a ha), h.tame, h.pend, h.leaf, h.callers⟩
  | @block a as b' _ _ ht hs =>
    refine ⟨fun x hx => ?_, fun hl x hx => ?_, ?_, fun v => ?_, h.callers⟩
    · rcases List.mem_cons.1 hx with rfl | hx
      · exact (hs a (by simp)).trans (h.slots a (by simp))
      · exact (hs x (by simp [hx])).trans (h.slots x (by simp [hx]))
    · rcases List.mem_cons.1 hx with rfl | hx
      · exact h.tame hl a (by simp)
      · exact h.tame hl x (by simp [hx])
    · exact (amid_congr (a := a.plain) (a' := XAct.plain { a with done := a.done ++ [.block b'] })
        isOpen_block rfl rfl).2 h.pend
    · rw [h.leaf v]
      constructor
      · rintro ⟨a', as', e, h1, h2, h3⟩
        cases e
        exact ⟨_, _, rfl, h1, isOpen_block.2 h2, h3⟩
      · rintro ⟨a', as', e, h1, h2, h3⟩
        cases e
        exact ⟨_, _, rfl, h1, isOpen_block.1 h2, h3⟩
  | @call a as h' _ _ p hc hs hg =>
    have hno : ∀ v, ¬ Leafy m (⟨h', [], s'.mem.read64 p, p⟩ :: a :: as) v := by
      rintro v ⟨a', as', e, _, h2, _⟩
      cases e
      exact not_open_nil h2
    have hno' : ∀ v, ¬ Leafy m (a :: as) v := fun v hv => by
      obtain ⟨w, hw⟩ := hfr.1 ⟨v, hv⟩
      exact hno w hw
    refine ⟨fun x hx => ?_, fun hl x hx => ?_, .inr ⟨fun hc => not_open_nil hc.1, h.pend⟩, fun v => ?_, fun x hx => ?_⟩
    · rcases List.mem_cons.1 hx with rfl | hx
      · rfl
      · exact (hs x hx).trans (h.slots x hx)
    · rcases List.mem_cons.1 hx with rfl | hx
      · exact hg hl
      · exact h.tame hl x hx
    · rw [h.leaf v]
      exact ⟨fun hv => (hno' v hv).elim, fun hv => (hno v hv).elim⟩
    · rcases List.mem_cons.1 hx with rfl | hx
      · exact fun hx => hno' _ ⟨_, _, rfl, hx.1, hx.2, rfl⟩
      · exact h.callers x hx
  | @ret a _ _ _ hc hs =>
    have hno : ∀ v, ¬ Leafy m acts' v := by
      rintro v ⟨a', as', rfl, h1, h2, _⟩
      exact h.callers a' (by simp) ⟨h1, h2⟩
    have hno' : ∀ v, ¬ Leafy m (a :: acts') v := fun v hv => by
      obtain ⟨w, hw⟩ := hfr.1 ⟨v, hv⟩
      exact hno w hw
    refine ⟨fun x hx => (hs x hx).trans (h.slots x (by simp [hx])), fun hl x hx => h.tame hl x (by simp [hx]),
      ?_, fun v => ?_, fun x hx => h.callers x (List.mem_of_mem_tail hx)⟩
    · exact amid_tail (a := a.plain) h.pend fun ho _ => hopen (hO.complete _ _ hc ho) (by simp)
    · rw [h.leaf v]
      exact ⟨fun hv => (hno' v hv).elim, fun hv => (hno v hv).elim⟩
  | @tail a as h' _ _ hc ht hs =>
    have hno : ∀ v, ¬ Leafy m ({ a with func := h', done := [] } :: as) v := by
      rintro v ⟨a', as', e, _, h2, _⟩
      cases e
      exact not_open_nil h2
    have hno' : ∀ v, ¬ Leafy m (a :: as) v := fun v hv => by
      obtain ⟨w, hw⟩ := hfr.1 ⟨v, hv⟩
      exact hno w hw
    refine ⟨fun x hx => ?_, fun hl x hx => ?_, .inr ⟨fun hc => not_open_nil hc.1, ?_⟩, fun v => ?_, h.callers⟩
    · rcases List.mem_cons.1 hx with rfl | hx
      · exact (hs a (by simp)).trans (h.slots a (by simp))
      · exact (hs x (by simp [hx])).trans (h.slots x (by simp [hx]))
    · rcases List.mem_cons.1 hx with rfl | hx
      · exact h.tame hl a (by simp)
      · exact h.tame hl x (by simp [hx])
    · exact amid_tail (a := a.plain) h.pend fun ho _ => hopen (hO.complete _ _ hc ho) (by simp)
    · rw [h.leaf v]
      exact ⟨fun hv => (hno' v hv).elim, fun hv => (hno v hv).elim⟩
  | @unwind u up a as _ _ hl hs =>
    have hsub : ∀ x ∈ a :: as, x ∈ u :: up ++ a :: as := fun x hx => List.mem_append_right _ hx
    have hno : ∀ v, ¬ Leafy m (a :: as) v := by
      rintro v ⟨a', as', e, h1, h2, _⟩
      cases e
      exact h.callers a (by simp) ⟨h1, h2⟩
    have hno' : ∀ v, ¬ Leafy m (u :: up ++ a :: as) v := fun v hv => by
      obtain ⟨w, hw⟩ := hfr.1 ⟨v, hv⟩
      exact hno w hw
    refine ⟨fun x hx => (hs x hx).trans (h.slots x (hsub x hx)), fun hl x hx => h.tame hl x (hsub x hx),
      ?_, fun v => ?_, fun x hx => h.callers x ?_⟩
    · have := h.pend
      rw [List.map_append, List.map_cons (l := as)] at this
      refine amid_drop this fun x hx _ _ => ?_
      obtain ⟨y, hy, rfl⟩ := List.mem_map.1 hx
      exact hopen (x := y) hl (List.mem_append_left _ hy)
    · rw [h.leaf v]
      exact ⟨fun hv => (hno' v hv).elim, fun hv => (hno v hv).elim⟩
    · simp only [List.tail_cons] at hx
      simp [hx]

/-- The first occurrence of a value. -/
theorem firstly {v : W} : ∀ {l : List W}, v ∈ l → ∃ pre post, l = pre ++ v :: post ∧ v ∉ pre := by
  intro l
  induction l with
  | nil => exact fun h => nomatch h
  | cons w l ih =>
    intro h
    by_cases e : v = w
    · exact ⟨[], l, by rw [e]; rfl, by simp⟩
    · obtain ⟨pre, post, rfl, hn⟩ := ih ((List.mem_cons.1 h).resolve_left e)
      exact ⟨w :: pre, post, rfl, by simp [hn, e]⟩

/-- A check finds its entry. -/
theorem amid_finds {a : Act} {as : List Act} {l : List W} (h : amid m (Stale loose) (a :: as) l)
    (ho : IsOpen a.done) (hr : ¬ m.inReg a.func) :
    ∃ post, Finds a.ra l post ∧ amid m (Stale loose) as post := by
  rcases h with ⟨_, _, j, l', rfl, hj, h⟩ | ⟨hn, _⟩
  · by_cases hm : a.ra ∈ j
    · obtain ⟨pre, post, rfl, hp⟩ := firstly hm
      refine ⟨post ++ a.ra :: l', ⟨pre, by simp, hp, fun x hx => (hj x (by simp [hx])).2⟩, ?_⟩
      have := amid_prepend (j := post ++ [a.ra]) (fun v hv => ?_) h
      · simpa using this
      · rcases List.mem_append.1 hv with hv | hv
        · exact hj v (by simp [hv])
        · exact List.mem_singleton.1 hv ▸ hj _ hm
    · exact ⟨l', ⟨j, rfl, hm, fun x hx => (hj x hx).2⟩, h⟩
  · exact absurd ⟨ho, hr⟩ hn

end

section
variable {κ L : Type} {P : Guest κ L} {m : ProgSem} {frame : Func → Reg}
variable {snip : Func → Ev → Place → Code → State → W → Prop} {spoils : Func → Ev → Place → Reg → Prop}
variable {D : Blind κ} {view : κ → List XAct} {loose : Prop} {g : W} {k0 : κ} {s0 : State}

theorem leafy_iff (hP : P.Follows m frame snip spoils D view loose g k0 s0) {k : κ} :
    (∃ v, Leafy m (view k) v) ↔ ∃ r, D.frame k = some r := by
  constructor
  · rintro ⟨v, a, as, e, h1, h2, _⟩
    exact ⟨_, (hP.frame k _).2 ⟨a, as, e, h1, h2.1, h2.2, rfl⟩⟩
  · rintro ⟨r, h⟩
    obtain ⟨a, as, e, h1, h2, h3, _⟩ := (hP.frame k r).1 h
    exact ⟨_, a, as, e, h1, ⟨h2, h3⟩, rfl⟩

theorem below_mono {x sp : W} {n w : Nat} (h : InRange x (sp - BitVec.ofNat 64 n) n) (hn : n ≤ w) (hw : w ≤ 16) :
    InRange x (sp - BitVec.ofNat 64 w) w := by
  unfold InRange at *
  have e1 : (BitVec.ofNat 64 n).toNat = n := Nat.mod_eq_of_lt (by omega)
  have e2 : (BitVec.ofNat 64 w).toNat = w := Nat.mod_eq_of_lt (by omega)
  generalize BitVec.ofNat 64 n = bn at *
  generalize BitVec.ofNat 64 w = bw at *
  subst e1 e2
  bv_omega

/-- Passing a snippet. -/
theorem GInv.pass (hO : InOrder m loose)
    (hsnip : ∀ f t ev pl c s R, m.trace f (t ++ [ev]) → snip f ev pl c s R →
      SnipFitsIn (m.inReg f) (frame f) (spoils f ev pl) pl.width c s R ev)
    (hP : P.Follows m frame snip spoils D view loose g k0 s0) {b : Book} {k k' : κ} {s : State} {c : Code} {a : XAct}
    {as : List XAct} {ev : Ev} {pl : Place} (ev1 : view k = a :: as)
    (ev2 : view k' = { a with done := a.done ++ [ev] } :: as)
    (hS : Stop m frame snip spoils D g k k' (view k) c s a ev pl) (hsite : P.site k = some (c, k')) (h : GInv m loose b (view k) s)
    (ht : Announced P m view k0 s0 b.pend k s) (hroom : 32 + 8 * b.pend.length + 8 ≤ regionSize) :
    ∃ (x : Site) (b' : Book), x.code = c ∧ x.Fits D g k k' s ∧ x.Keeps s b b' ∧
      (GInv m loose b' (view k') s ∧ Announced P m view k0 s0 b'.pend k' s) ∧
      x.word s = a.at_ ∧ x.below ≤ pl.width := by
  have hmem : a ∈ view k := by rw [ev1]; simp
  have hap : Apart g a.at_ 16 s := hS.clear a hmem
  have hra := h.slots a hmem
  have hslots : ∀ x ∈ view k', s.mem.read64 x.at_ = x.ra := by
    intro x hx
    rw [ev2] at hx
    rcases List.mem_cons.1 hx with rfl | hx
    · exact hra
    · exact h.slots x (by rw [ev1]; simp [hx])
  have htame : loose → ∀ x ∈ view k', ¬ GuardLike x.ra := by
    intro hl x hx
    rw [ev2] at hx
    rcases List.mem_cons.1 hx with rfl | hx
    · exact h.tame hl a hmem
    · exact h.tame hl x (by rw [ev1]; simp [hx])
  have hcallers : ∀ x ∈ (view k').tail, ¬ (m.inReg x.func ∧ IsOpen x.done) := by
    intro x hx
    rw [ev2] at hx
    exact h.callers x (by rw [ev1]; exact hx)
  have hpend := h.pend
  rw [ev1, List.map_cons] at hpend
  -- the frame register when the function does not use one
  have hnoframe : ∀ {k : κ} {a : XAct} {as : List XAct}, view k = a :: as → ¬ m.inReg a.func →
      D.frame k = none := by
    intro k a as e hn
    cases hf : D.frame k with
    | none => rfl
    | some r =>
      obtain ⟨a', as', e', h1, _⟩ := (hP.frame k r).1 hf
      rw [e] at e'
      cases e'
      exact absurd h1 hn
  have hnoleaf : ∀ {a : XAct} {as : List XAct}, ¬ m.inReg a.func → ∀ v, ¬ Leafy m (a :: as) v := by
    rintro a as hn v ⟨a', as', e, h1, _⟩
    cases e
    exact hn h1
  cases hsnip _ _ _ _ _ _ _ hS.trace hS.code with
  | @push d n free hn hpush hw hfree hR =>
    refine ⟨.push c d n free, { b with pend := s.mem.read64 (s.retAddr d) :: b.pend }, rfl,
      ⟨hpush, ?_, ?_, fun x hx => hS.mem x (hx.imp_right fun hx => below_mono hx hw (width_le pl)),
        fun r hr => hS.regs r (hr.imp_right (hfree r)), fun hf => hS.flags (hf.imp_right fun e => e.elim), ?_⟩,
      .push hroom, ⟨⟨hslots, htame, ?_, fun v => ?_, hcallers⟩, ?_⟩, hR, hw⟩
    · show Apart g (s.retAddr d) n s
      exact hR ▸ hap.mono (Nat.le_trans hw (width_le pl))
    · exact fun x hx => hS.visible x (hR ▸ hx)
    · refine ⟨(hnoframe ev2 hn).trans (hnoframe ev1 hn).symm, fun r hr => ?_⟩
      rw [hnoframe ev1 hn] at hr
      cases hr
    · rw [hR, hra, ev2]
      by_cases hch : .check ∈ a.done
      · have hl := (hO.push _ _ hS.trace (.inr hch)).1
        refine .inr ⟨fun hc => hc.1.2 (by show _ ∈ a.done ++ _; simp [hch]), ?_⟩
        have h1 := amid_tail hpend fun ho _ => absurd hch ho.2
        exact amid_prepend (j := [a.ra]) (fun v hv => List.mem_singleton.1 hv ▸ ⟨hl, h.tame hl a hmem⟩) h1
      · have ho : IsOpen (a.done ++ [.push]) := ⟨by simp, by simp [hch]⟩
        refine .inl ⟨ho, hn, [], b.pend, rfl, (fun v hv => nomatch hv), ?_⟩
        refine amid_tail hpend fun ho _ => ?_
        have hl := (hO.push _ _ hS.trace (.inl ho.1)).1
        exact ⟨hl, h.tame hl a hmem⟩
    · show b.leaf = some v ↔ _
      rw [h.leaf v, ev1, ev2]
      exact ⟨fun hv => (hnoleaf hn v hv).elim, fun hv => absurd hv (hnoleaf (by exact hn) v)⟩
    · rw [hR]
      exact .push ht hsite ev1 ev2 hn
  | @check d n free hn hcheck hw hfree hR =>
    have ho := hO.check _ _ hS.trace
    obtain ⟨post, hfind, hpost⟩ := amid_finds hpend ho hn
    have hfind' : Finds (s.mem.read64 a.at_) b.pend post := by rw [hra]; exact hfind
    refine ⟨.check c d n free, { b with pend := post }, rfl,
      ⟨hcheck, ?_, ?_, fun x hx => hS.mem x (hx.imp_right fun hx => below_mono hx hw (width_le pl)),
        fun r hr => hS.regs r (hr.imp_right (hfree r)), fun hf => hS.flags (hf.imp_right fun _ => rfl), ?_⟩,
      .check (hR ▸ hfind'), ⟨⟨hslots, htame, ?_, fun v => ?_, hcallers⟩, .check ht hsite ev1 ev2 hn hfind'⟩,
      hR, hw⟩
    · show Apart g (s.retAddr d) n s
      exact hR ▸ hap.mono (Nat.le_trans hw (width_le pl))
    · exact fun x hx => hS.visible x (hR ▸ hx)
    · refine ⟨(hnoframe ev2 hn).trans (hnoframe ev1 hn).symm, fun r hr => ?_⟩
      rw [hnoframe ev1 hn] at hr
      cases hr
    · rw [ev2]
      exact .inr ⟨fun hc => hc.1.2 (by show _ ∈ a.done ++ _; simp), hpost⟩
    · show b.leaf = some v ↔ _
      rw [h.leaf v, ev1, ev2]
      exact ⟨fun hv => (hnoleaf hn v hv).elim, fun hv => absurd hv (hnoleaf (by exact hn) v)⟩
  | @save d hin hsave hR =>
    have hno : ∀ v, ¬ Leafy m (view k) v := by
      rintro v ⟨a', as', e, _, h2, _⟩
      rw [ev1] at e
      cases e
      exact (hO.push _ _ hS.trace (.inl h2.1)).2 hin
    have hch : .check ∉ a.done := fun hc => (hO.push _ _ hS.trace (.inr hc)).2 hin
    have hleaf : b.leaf = none := by
      cases hl : b.leaf with
      | none => rfl
      | some v => exact (hno v ((h.leaf v).1 hl)).elim
    have hf0 : D.frame k = none := by
      cases hf : D.frame k with
      | none => rfl
      | some r =>
        obtain ⟨v, hv⟩ := (leafy_iff hP).2 ⟨r, hf⟩
        exact (hno v hv).elim
    have hf1 : D.frame k' = some (frame a.func) :=
      (hP.frame k' _).2 ⟨_, _, ev2, hin, by simp, by simp [hch], rfl⟩
    obtain ⟨p, lf⟩ := b
    subst hleaf
    refine ⟨.save c (frame a.func) d, ⟨p, some (s.mem.read64 (s.retAddr d))⟩, rfl,
      ⟨hsave, ?_, ?_, fun x hx => hS.mem x (hx.imp_right fun hx => absurd hx (by simp [InRange, Site.below])),
        fun r hr => hS.regs r (hr.imp_right fun e => e.elim), fun hf => hS.flags (hf.imp_right fun e => e.elim),
        hf0, hS.unused hin rfl, hf1⟩, .save, ⟨⟨hslots, htame, ?_, fun v => ?_, hcallers⟩,
      .frame ht hsite ev1 hin⟩, hR, Nat.zero_le _⟩
    · show Apart g (s.retAddr d) 0 s
      exact hR ▸ hap.mono (Nat.zero_le _)
    · exact fun x hx => hS.visible x (hR ▸ hx)
    · rw [ev2]
      refine .inr ⟨fun hc => hc.2 hin, ?_⟩
      exact amid_tail hpend fun _ hn => absurd hin hn
    · rw [hR, hra, ev2]
      constructor
      · intro e
        cases e
        exact ⟨_, _, rfl, hin, ⟨by simp, by simp [hch]⟩, rfl⟩
      · rintro ⟨a', as', e, _, _, rfl⟩
        cases e
        rfl
  | compare hin hcmp hR =>
    have ho := hO.check _ _ hS.trace
    have hleaf : b.leaf = some (s.mem.read64 (s.regs .rsp)) := by
      rw [hR, hra]
      exact (h.leaf _).2 ⟨a, as, ev1, hin, ho, rfl⟩
    have hf0 : D.frame k = some (frame a.func) := (hP.frame k _).2 ⟨a, as, ev1, hin, ho.1, ho.2, rfl⟩
    have hf1 : D.frame k' = none := by
      cases hf : D.frame k' with
      | none => rfl
      | some r =>
        obtain ⟨a', as', e, _, _, h3, _⟩ := (hP.frame k' r).1 hf
        rw [ev2] at e
        cases e
        exact absurd (by simp) h3
    obtain ⟨p, lf⟩ := b
    cases hleaf
    refine ⟨.compare c (frame a.func), ⟨p, none⟩, rfl,
      ⟨hcmp, ?_, ?_, fun x hx => hS.mem x (hx.imp_right fun hx => absurd hx (by simp [InRange, Site.below])),
        fun r hr => hS.regs r (hr.imp_right fun e => e.elim), fun hf => hS.flags (hf.imp_right fun _ => rfl),
        hf0, hf1⟩, .compare, ⟨⟨hslots, htame, ?_, fun v => ?_, hcallers⟩,
      .frame ht hsite ev1 hin⟩, hR, Nat.zero_le _⟩
    · show Apart g (s.regs .rsp) 0 s
      exact hR ▸ hap.mono (Nat.zero_le _)
    · exact fun x hx => hS.visible x (hR ▸ hx)
    · rw [ev2]
      refine .inr ⟨fun hc => hc.2 hin, ?_⟩
      exact amid_tail hpend fun _ hn => absurd hin hn
    · refine ⟨(fun e => nomatch e), ?_⟩
      rw [ev2]
      rintro ⟨a', as', e, _, h2, _⟩
      cases e
      exact absurd (by simp) h2.2

/-- At the beginning. -/
theorem GInv.start (hP : P.Follows m frame snip spoils D view loose g k0 s0) : GInv m loose {} (view k0) s0 := by
  have hno : ∀ a ∈ view k0, ¬ IsOpen a.done := fun a ha => by
    rw [(hP.begins a ha).1]; exact not_open_nil
  refine ⟨fun a ha => (hP.begins a ha).2.1, fun hl a ha => (hP.begins a ha).2.2 hl, ?_, fun v => ?_, fun a ha hc =>
    hno a (List.mem_of_mem_tail ha) hc.2⟩
  · revert hno
    generalize view k0 = acts
    intro hno
    induction acts with
    | nil => exact fun v hv => nomatch hv
    | cons a as ih =>
      exact .inr ⟨fun hc => hno a (by simp) hc.1, ih fun x hx => hno x (by simp [hx])⟩
  · refine ⟨(fun e => nomatch e), ?_⟩
    rintro ⟨a, as, e, _, h2, _⟩
    exact absurd h2 (hno a (by rw [e]; simp))

/-- The book can be kept. -/
theorem InOrder.accounts (hO : InOrder m loose)
    (hsnip : ∀ f t ev pl c s R, m.trace f (t ++ [ev]) → snip f ev pl c s R →
      SnipFitsIn (m.inReg f) (frame f) (spoils f ev pl) pl.width c s R ev)
    (hP : P.Follows m frame snip spoils D view loose g k0 s0) (hR : P.Respects D g k0 s0)
    (hroom : ∀ tr b k s c k', BareRun P k0 s0 tr k s → P.site k = some (c, k') → GInv m loose b (view k) s →
      Announced P m view k0 s0 b.pend k s → 32 + 8 * b.pend.length + 8 ≤ regionSize) :
    P.Accounts D g k0 s0 fun b k s => GInv m loose b (view k) s ∧ Announced P m view k0 s0 b.pend k s where
  start := ⟨.start hP, .start⟩
  own := by
    intro tr b k s l k' s' hrun ⟨h, ht⟩ hs
    have hfr := (hR.spares tr k s s l k' s' hrun ⟨fun _ _ => rfl, fun _ => rfl, rfl, fun _ _ => rfl⟩ hs).2.2.2
    refine ⟨h.move hO (hP.moves tr k s l k' s' hrun hs) ?_, .own ht hs⟩
    rw [leafy_iff hP, leafy_iff hP, hfr]
  pass := by
    intro tr b k s c k' hrun ⟨h, ht⟩ hs
    obtain ⟨a, as, ev, pl, ev1, ev2, hS⟩ := hP.sites tr k s c k' hrun hs
    obtain ⟨x, b', h1, h2, h3, h4, _⟩ := GInv.pass hO hsnip hP ev1 ev2 hS hs h ht (hroom tr b k s c k' hrun hs h ht)
    exact ⟨x, b', h1, h2, h3, h4⟩

end

/-! ## The plans -/

section
variable {fl : InstrFlags} {skip : List Nat} {co : CodeObj} {info : StackInfo} {R : Func → RegFacts}
  {T : Sums} {bf : Func → BFunc} {plan : Func → Plan} {jf : JitFlags} {B : Binary} {dead : Func → DeadNames}
  {frame : Func → Reg}

/-- In a lowered function checks come after pushes, whatever the handlers do. -/
theorem traceFrom_check {f : Func} {s : FuncSummary} {L : Lowered} {E : List Edge} {reach : List PNode}
    {cs : CState} (hl : LowFacts co f s L E reach cs)
    (hex : ∀ b ∈ co.exitBlocks f, isNonreturningCall (co.targets b) = false → ∀ e ∈ co.targets b, ¬ Flow e)
    {n n' : PNode} {es : List Edge} (hw : CopyWalk co.targets Flow L.dest n es n') :
    ∀ u v, traceFrom L.dest E [] (L.pops.map Prod.fst) n es = u ++ .check :: v →
      .check ∉ u ∧ (n.2 = true ∨ .push ∈ u) := by
  induction hw with
  | nil n =>
    intro u v h
    rw [traceFrom] at h
    cases u with
    | nil => simp [nodeEv] at h
    | cons x u =>
      by_cases hc : n.2 = true ∧ n.1 ∈ L.pops.map Prod.fst
      · rw [nodeEv, if_pos hc] at h
        obtain ⟨rfl, h⟩ : Ev.block n.1 = x ∧ [Ev.check] = u ++ .check :: v := by simpa using h
        cases u with
        | nil => exact ⟨by simp, .inl hc.1⟩
        | cons y u => simp at h
      · rw [nodeEv, if_neg hc] at h
        simp at h
  | @cons n n' e es he hf hw ih =>
    intro u v h
    have hn : ¬ (n.2 = true ∧ n.1 ∈ L.pops.map Prod.fst) := fun hc => by
      obtain ⟨h1, h2⟩ := (hl.pops n.1).1 hc.2
      exact hex _ h1 h2 e he hf
    rw [traceFrom, nodeEv, if_neg hn, edgeEv] at h
    by_cases hc : n.2 = false ∧ e ∈ E
    · rw [if_pos hc] at h
      match u, h with
      | [], h => simp at h
      | [x], h => simp at h
      | x :: y :: u, h =>
        obtain ⟨rfl, rfl, h'⟩ : Ev.block n.1 = x ∧ Ev.push = y ∧
            traceFrom L.dest E [] (L.pops.map Prod.fst) (L.dest e n.2) es = u ++ .check :: v := by simpa using h
        exact ⟨by simpa using (ih u v h').1, .inr (by simp)⟩
    · rw [if_neg hc] at h
      match u, h with
      | [], h => simp at h
      | x :: u, h =>
        obtain ⟨rfl, h'⟩ : Ev.block n.1 = x ∧
            traceFrom L.dest E [] (L.pops.map Prod.fst) (L.dest e n.2) es = u ++ .check :: v := by simpa using h
        obtain ⟨h1, h2⟩ := ih u v h'
        refine ⟨by simpa using h1, ?_⟩
        rcases Bool.eq_false_or_eq_true n.2 with h3 | h3
        · exact .inl h3
        · rw [hl.dest, if_pos h3, if_neg fun h => hc ⟨h3, h⟩] at h2
          exact .inr (by simpa using h2)

theorem lowered_check (ha : fl.asserts = true) {f : Func} (hok : FuncOk co f) {L : Lowered}
    (hex : ∀ b ∈ co.exitBlocks f, isNonreturningCall (co.targets b) = false → ∀ e ∈ co.targets b, ¬ Flow e)
    (hl : doLowering fl co f (some (T f)) = some (some L)) {es : List Edge} {b' : Blk}
    (hw : Walk co.targets Flow (co.entry f) es b') {u v : List Ev}
    (h : L.trace (co.entry f) es = u ++ .check :: v) : IsOpen u := by
  obtain ⟨r, reach, cs, _, _, _, hlf⟩ := low_facts ha hl
  obtain ⟨c', hcw⟩ := C32_lift ha hl hw false
  obtain ⟨t, t1, t2⟩ := coalesce_trace hok.wf hlf (L.pops.map Prod.fst) hcw (fun h => by cases h)
  have hni : (co.entry f, false) ∉ cs.inst := fun h => by
    have := hlf.coalesced.clone _ h
    cases this
  have e : L.trace (co.entry f) es =
      traceFrom L.dest r.redirect [] (L.pops.map Prod.fst) (co.entry f, false) es := by
    unfold Lowered.trace
    rw [hlf.edges, hlf.blocks, t1, t2]
    simp [nodeEv, hni]
  rw [e] at h
  obtain ⟨h1, h2⟩ := traceFrom_check hlf hex hcw u v h
  exact ⟨h2.resolve_left (by simp), h1⟩

/-- A skipped function executes no snippets. -/
theorem skipped_plain {f : Func} {es : List Edge} (h : plan f = .skipped) :
    Ev.push ∉ (plan f).trace (co.entry f) es ∧ Ev.check ∉ (plan f).trace (co.entry f) es := by
  rw [h]; simp [Plan.trace]

/-- The conditions follow from the shape of what each function executes. -/
theorem shape_ordered {wr inReg stays : Func → Prop} {ok : Edge → Prop} {loose : Prop}
    (hshape : ∀ f ∈ co.funcs, plan f ≠ .skipped → ∀ es b', Walk co.targets ok (co.entry f) es b' →
      RightShape co info wr f b' ((plan f).trace (co.entry f) es) ∨
      (loose ∧ ¬ inReg f ∧ ∀ u v, (plan f).trace (co.entry f) es = u ++ .check :: v → IsOpen u)) :
    InOrder (semOn ok co plan info inReg stays) loose where
  push := by
    rintro f t ⟨hf, t', es, b', hw, ht⟩ hor
    have hs : plan f ≠ .skipped := fun hs => (skipped_plain hs).1 (by rw [← ht]; simp)
    rcases hshape f hf hs _ _ hw with hpre | h
    · rw [← ht, List.append_assoc] at hpre
      exact (hor.elim (pre_push hpre).1 (pre_push hpre).2).elim
    · exact ⟨h.1, h.2.1⟩
  check := by
    rintro f t ⟨hf, t', es, b', hw, ht⟩
    have hs : plan f ≠ .skipped := fun hs => (skipped_plain hs).2 (by rw [← ht]; simp)
    rcases hshape f hf hs _ _ hw with hpre | h
    · rw [← ht, List.append_assoc] at hpre
      exact pre_check hpre
    · exact h.2.2 t t' (by rw [← ht]; simp)
  complete := by
    rintro f t ⟨b, hf, hx, hr, es, hw, rfl⟩ ho
    have hs : plan f ≠ .skipped := fun hs => (skipped_plain hs).1 ho.1
    rcases hshape f hf hs _ _ hw with hpre | h
    · exact absurd ho (pre_fin hpre ⟨hx, hr⟩)
    · exact h.1

/-- The plans, in programs without exceptions. -/
theorem built_ordered (hb : Built fl skip co info R T bf plan)
    (hcall : ∀ f ∈ co.funcs, NoCallAtCheck fl co (bf f)) (loose : Prop) :
    InOrder (semOf co info plan (inRegOf fl T) (staysOf bf)) loose :=
  shape_ordered (wr := Wr T) fun f hf hne _ _ hw => .inl <|
    plan_shape hb hcall hf hne (hb.func f hf).wf.closed (fun b h _ => (hb.func f hf).exits b h)
      (hb.view f hf).out hw fun _ _ hl =>
        lowered_pre (analyse_judged hb.code hb.sums) hb.asserts hf (hb.func f hf) hl hw

/-- The plans, in programs with exceptions. -/
theorem built_ordered_handlers (hb : Built fl skip co info R T bf plan)
    (hcall : ∀ f ∈ co.funcs, NoCallAtCheck fl co (bf f)) (hh : ∀ f ∈ co.funcs, HandlersOk co (bf f) f)
    (hn : ∀ f ∈ co.funcs, inRegOf fl T f → ∀ b ∈ co.blocks f, ∀ e ∈ co.targets b, e.type ≠ .catch) :
    InOrder (semOn Flow co plan info (inRegOf fl T) (staysOf bf)) True := by
  refine shape_ordered (wr := Wr T) fun f hf hne es b' hw => ?_
  have key := fun hlow => plan_shape (b' := b') hb hcall hf hne (hh f hf).closed (hh f hf).exits (hh f hf).out hw hlow
  by_cases hr : inRegOf fl T f
  · refine .inl (key fun L _ hl => lowered_pre (analyse_judged hb.code hb.sums) hb.asserts hf (hb.func f hf) hl ?_)
    rcases first_catch hw with hw | ⟨es1, c, e, es2, rfl, h1, h2, _, h4, _⟩
    · exact hw
    · have hc := walk_blocks (hb.func f hf).wf.closed h1 (hb.func f hf).wf.entry c
        (List.mem_of_getLast? (visits_last h1))
      exact absurd h4 (hn f hf hr c hc e h2)
  · by_cases hp : ∃ L, plan f = .lowered L ∧ doLowering fl co f (some (T f)) = some (some L)
    · obtain ⟨L, hp, hl⟩ := hp
      refine .inr ⟨trivial, hr, fun u v h => ?_⟩
      rw [hp] at h
      exact lowered_check hb.asserts (hb.func f hf) (hh f hf).exits hl hw h
    · exact .inl (key fun L h1 h2 => absurd ⟨L, h1, h2⟩ hp)

/-- Every snippet of the plan fits. -/
theorem snippets_within (hB : BinaryOk B fl jf co info R bf dead frame)
    (hb : Built fl skip co info R T bf plan) (hcall : ∀ f ∈ co.funcs, NoCallAtCheck fl co (bf f))
    {f : Func} (hf : f ∈ co.funcs) {ev : Ev} {pl : Place} {c : Code} {s : State} {r : W}
    (h : B.SnippetAt jf (fun f => (T f).jit (dead f)) co plan f ev pl c s r) :
    SnipFitsIn (inRegOf fl T f) (frame f) (B.Spoils jf co dead f ev pl) pl.width c s r ev := by
  cases ev with
  | block => exact h.elim
  | push =>
    obtain ⟨k, h1, h2, h3⟩ := h
    obtain ⟨c', h4, h5⟩ := plan_pushes hB hb hf h1
    rw [h4] at h2
    cases h2
    exact h5 _ _ h3
  | check =>
    obtain ⟨k, h1, h2, h3⟩ := h
    obtain ⟨c', h4, h5⟩ := plan_checks hB hb hf (hcall f hf) h1
    rw [h4] at h2
    cases h2
    exact h5 _ _ h3

variable {κ L : Type} {P : Guest κ L} {D : Blind κ} {view : κ → List XAct} {g : W} {k0 : κ} {s0 : State}

/-- **C104.** A program instrumented by the tool does what the original does and is not killed, if the
original leaves its return addresses alone, does not look at what the snippets destroy, and has enough
shadow stack for the depth of its calls.  Neither recursion nor tail calls matter, nor which functions the
tool leaves out. -/
theorem C104_same_behaviour_partial (hB : BinaryOk B fl jf co info R bf dead frame)
    (hb : Built fl skip co info R T bf plan) (hcall : ∀ f ∈ co.funcs, NoCallAtCheck fl co (bf f))
    (hP : P.Follows (semOf co info plan (inRegOf fl T) (staysOf bf)) frame
      (B.SnippetAt jf (fun f => (T f).jit (dead f)) co plan) (B.Spoils jf co dead) D view False g k0 s0)
    (hR : P.Respects D g k0 s0) (hr : Recorded g [] s0)
    (hdepth : ∀ tr k s, BareRun P k0 s0 tr k s → 40 + 8 * (view k).length ≤ regionSize) :
    P.Refines D k0 s0 := by
  refine C103_same_behaviour hR ⟨_, (built_ordered hb hcall False).accounts
    (fun f t ev pl c s r ht h => snippets_within hB hb hcall (And.left (b := ∃ _, _) ht) h) hP hR ?_⟩ hr ?_
  · intro tr b k s c k' hrun _ hi _
    have := amid_length id hi.pend
    rw [List.length_map] at this
    have := hdepth tr k s hrun
    omega
  · cases hf : D.frame k0 with
    | none => rfl
    | some r =>
      obtain ⟨a, as, e, _, h, _⟩ := (hP.frame k0 r).1 hf
      rw [(hP.begins a (by rw [e]; simp)).1] at h
      cases h

/-- **C104 with exceptions and `longjmp`.** The same if activations are abandoned, and whatever the handlers
are; no return address ends in 32 zero bits, and functions which use the frame register have no handlers.
Abandoned activations may leave entries on the shadow stack: there must be room for them. -/
theorem C104_unwinding_partial (hB : BinaryOk B fl jf co info R bf dead frame)
    (hb : Built fl skip co info R T bf plan) (hcall : ∀ f ∈ co.funcs, NoCallAtCheck fl co (bf f))
    (hh : ∀ f ∈ co.funcs, HandlersOk co (bf f) f)
    (hn : ∀ f ∈ co.funcs, inRegOf fl T f → ∀ b ∈ co.blocks f, ∀ e ∈ co.targets b, e.type ≠ .catch)
    (hP : P.Follows (semOn Flow co plan info (inRegOf fl T) (staysOf bf)) frame
      (B.SnippetAt jf (fun f => (T f).jit (dead f)) co plan) (B.Spoils jf co dead) D view True g k0 s0)
    (hR : P.Respects D g k0 s0) (hr : Recorded g [] s0)
    (hroom : ∀ l k s, Announced P (semOn Flow co plan info (inRegOf fl T) (staysOf bf)) view k0 s0 l k s →
      40 + 8 * l.length ≤ regionSize) :
    P.Refines D k0 s0 := by
  refine C103_same_behaviour hR ⟨_, (built_ordered_handlers hb hcall hh hn).accounts
    (fun f t ev pl c s r ht h => snippets_within hB hb hcall (And.left (b := ∃ _, _) ht) h) hP hR ?_⟩ hr ?_
  · intro tr b k s c k' _ _ _ ht
    have := hroom _ _ _ ht
    omega
  · cases hf : D.frame k0 with
    | none => rfl
    | some r =>
      obtain ⟨a, as, e, _, h, _⟩ := (hP.frame k0 r).1 hf
      rw [(hP.begins a (by rw [e]; simp)).1] at h
      cases h

end

end Verif
