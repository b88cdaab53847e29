import Verif.RefineLive
import Verif.Props.RefinePlan
import Verif.Props.RefineFull

/-!
# C106: what is not live is not missed
-/

namespace Verif

section
variable {κ L : Type} {code : κ → Option (Action κ L)} {site : κ → Option (Code × κ)} {D : Blind κ} {g : W} {k0 : κ}
  {s0 : State}

/-- One instruction, in two states which the program cannot tell apart. -/
theorem Loses.both (hf : ∀ k o, code k = some o → o.Fair) (hL : Loses code site D g k0 s0) {tr : List L} {k : κ}
    {s t : State} {o : Action κ L} (hr : BareRun (guestOf code site) k0 s0 tr k s) (hk : code k = some o)
    (hst : D.Same k s t) : (∀ a, o.stores t a ↔ o.stores s a) ∧
    ∀ l, SameResult (fun r => D.hides k r ∧ ¬ o.sets r) (D.flags k ∧ ¬ o.setsFlags)
      (fun a => D.mem k (s.regs .rsp) a ∧ ¬ o.stores s a) (o.run s l) (o.run t l) := by
  obtain ⟨h1, h2, h3⟩ := hL.reads tr k s o hr hk
  refine (hf k o hk).dep _ _ _ s t hst (fun r h => ?_) h2 h3
  rcases h with h | h
  · exact h1 r h
  · exact ((hL.spares tr k s o hr hk).1 r h).1

theorem Loses.next (hL : Loses code site D g k0 s0) {tr : List L} {k k' : κ} {s s' t' : State}
    {o : Action κ L} {l : L} (hr : BareRun (guestOf code site) k0 s0 tr k s) (hk : code k = some o)
    (hs : o.run s l = some (k', s'))
    (h : Near (fun r => D.hides k r ∧ ¬ o.sets r) (D.flags k ∧ ¬ o.setsFlags)
      (fun a => D.mem k (s.regs .rsp) a ∧ ¬ o.stores s a) s' t') : D.Same k' s' t' := by
  obtain ⟨h1, h2, h3, h4⟩ := hL.goes tr k s o l k' s' hr hk hs
  refine ⟨fun r hr' => h.regs r fun hh => hr' ?_, fun hF => h.flags fun hh => hF (h2 hh.1 hh.2), h.gs,
    fun a ha => h.mem a fun hh => ha (h3 a hh.1 hh.2)⟩
  rcases hh with ⟨hh | hh, hn⟩
  · exact .inl (h1 r hh hn)
  · exact .inr (h4.trans hh)

/-- **C106.** A program of instructions which do what they declare cannot see the snippets, if what they destroy
is not live. -/
theorem C106_respects (hf : ∀ k o, code k = some o → o.Fair) (hL : Loses code site D g k0 s0) :
    (guestOf code site).Respects D g k0 s0 where
  rsp := hL.rsp
  region := hL.region
  spares tr k s t l k' t' hr hst h := by
    obtain ⟨o, hk, ht⟩ := h
    obtain ⟨h1, h2⟩ := hL.both hf hr hk hst
    obtain ⟨h3, h4⟩ := hL.spares tr k s o hr hk
    obtain ⟨k1, k2, k3⟩ := (hf k o hk).keep t l k' t' ht
    refine ⟨k1, fun x hx => k3 x fun hs => h4 x ((h1 x).1 hs) hx, fun r hr' => k2 r (h3 r hr').2, ?_⟩
    have := h2 l
    rw [ht] at this
    cases hs : o.run s l with
    | none => rw [hs] at this; exact this.elim
    | some p =>
      obtain ⟨k1, s'⟩ := p
      rw [hs] at this
      obtain ⟨rfl, _⟩ := this
      exact (hL.goes tr k s o l _ s' hr hk hs).2.2.2
  forth tr k s t l k' s' hr hst h := by
    obtain ⟨o, hk, hs⟩ := h
    have := (hL.both hf hr hk hst).2 l
    rw [hs] at this
    cases ht : o.run t l with
    | none => rw [ht] at this; exact this.elim
    | some p =>
      obtain ⟨k1, t'⟩ := p
      rw [ht] at this
      obtain ⟨rfl, hn⟩ := this
      exact ⟨t', ⟨o, hk, ht⟩, hL.next hr hk hs hn⟩
  back tr k s t l k' t' hr hst h := by
    obtain ⟨o, hk, ht⟩ := h
    have := (hL.both hf hr hk hst).2 l
    rw [ht] at this
    cases hs : o.run s l with
    | none => rw [hs] at this; exact this.elim
    | some p =>
      obtain ⟨k1, s'⟩ := p
      rw [hs] at this
      obtain ⟨rfl, hn⟩ := this
      exact ⟨s', ⟨o, hk, hs⟩, hL.next hr hk hs hn⟩

end

section
variable {fl : InstrFlags} {skip : List Nat} {co : CodeObj} {info : StackInfo} {R : Func → RegFacts} {T : Sums}
  {bf : Func → BFunc} {plan : Func → Plan} {B : Binary} {jf : JitFlags} {dead : Func → DeadNames}
  {frame : Func → Reg} {κ L : Type} {code : κ → Option (Action κ L)} {site : κ → Option (Code × κ)} {D : Blind κ}
  {view : κ → List XAct} {g : W} {k0 : κ} {s0 : State}

/-- **C106 for light mode**: C104 with the equations of live variables. -/
theorem C106_light_partial (hB : BinaryOk B fl jf co info R bf dead frame)
    (hb : Built fl skip co info R T bf plan) (hcall : ∀ f ∈ co.funcs, NoCallAtCheck fl co (bf f))
    (hf : ∀ k o, code k = some o → o.Fair)
    (hP : (guestOf code site).Follows (semOf co info plan (inRegOf fl T) (staysOf bf)) frame
      (B.SnippetAt jf (fun f => (T f).jit (dead f)) co plan) (B.Spoils jf co dead) D view False g k0 s0)
    (hL : Loses code site D g k0 s0) (hr : Recorded g [] s0)
    (hdepth : ∀ tr k s, BareRun (guestOf code site) k0 s0 tr k s → 40 + 8 * (view k).length ≤ regionSize) :
    (guestOf code site).Refines D k0 s0 :=
  C104_same_behaviour_partial hB hb hcall hP (C106_respects hf hL) hr hdepth

/-- **C106 for full mode**: C105 with the equations of live variables. -/
theorem C106_full_partial (hB : FullBinaryOk B jf co) (hb : BuiltFull fl skip co bf plan)
    (hf : ∀ k o, code k = some o → o.Fair)
    (hP : (guestOf code site).Follows (semOf co info plan (fun _ => False) (staysOf bf)) frame
      (B.FullSnippetAt jf co plan) (fun _ _ _ _ => False) D view False g k0 s0)
    (hL : Loses code site D g k0 s0) (hr : Recorded g [] s0)
    (hdepth : ∀ tr k s, BareRun (guestOf code site) k0 s0 tr k s → 40 + 8 * (view k).length ≤ regionSize) :
    (guestOf code site).Refines D k0 s0 :=
  C105_same_behaviour_partial hB hb hP (C106_respects hf hL) hr hdepth

/-- **C107 where all pushes are at the entries of functions** (missing: pushes at other places). -/
theorem C107_optimized_partial (hB : BinaryOk B fl jf co info R bf dead frame)
    (hb : Built fl skip co info R T bf plan) (hcall : ∀ f ∈ co.funcs, NoCallAtCheck fl co (bf f))
    (hplace : jf.optimizeRegs = true → ∀ f ∈ co.funcs, ∀ pl k, (pl, k) ∈ (plan f).pushes →
      (∀ e, pl ≠ .edge e) ∧ ∀ b, pl = .blk b → b = co.entry f)
    (hf : ∀ k o, code k = some o → o.Fair)
    (hP : (guestOf code site).Follows (semOf co info plan (inRegOf fl T) (staysOf bf)) frame
      (B.SnippetAt jf (fun f => (T f).jit (dead f)) co plan) (B.EntrySpoils jf dead co) D view False g k0 s0)
    (hL : Loses code site D g k0 s0) (hr : Recorded g [] s0)
    (hdepth : ∀ tr k s, BareRun (guestOf code site) k0 s0 tr k s → 40 + 8 * (view k).length ≤ regionSize) :
    (guestOf code site).Refines D k0 s0 := by
  refine C106_light_partial hB hb hcall hf ⟨hP.begins, hP.moves, fun tr k s c k' hk hs => ?_, hP.frame⟩ hL hr hdepth
  obtain ⟨a, as, ev, pl, h1, h2, st⟩ := hP.sites tr k s c k' hk hs
  refine ⟨a, as, ev, pl, h1, h2, st.trace, st.code, st.clear, st.visible, st.mem, fun r h => st.regs r ?_, st.flags,
    st.unused⟩
  refine h.imp_right fun h => ?_
  have hc := st.code
  have hm : a.func ∈ co.funcs := And.left (b := ∃ _, _) st.trace
  cases ev with
  | block b => cases pl <;> exact h
  | check => cases pl <;> exact h
  | push =>
    obtain ⟨q, hq, _⟩ := hc
    cases pl with
    | insn b x => exact h
    | edge e =>
      rcases h with h | h
      · exact absurd rfl ((hplace h.1 _ hm _ _ hq).1 e)
      · exact h
    | blk b => exact ⟨(hplace h.1 _ hm _ _ hq).2 b rfl, h⟩

end

end Verif
