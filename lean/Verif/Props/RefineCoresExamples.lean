import Verif.Props.RefineCoresPlan
import Verif.Props.RefineTeamExamples

/-! C123: two threads which execute the recursive program and talk to each other, on cores with store buffers. -/

namespace Verif

/-! ## Instructions on shared memory -/

/-- A byte in no area. -/
def noteAddr : W := 0x8000

/-- What is shown of the byte. -/
def noteSeen (shows : Bool) (s : State) : W := if shows then (s.mem noteAddr).setWidth 64 else 0

/-- Store a byte at `noteAddr`; if `shows`, show what was there. -/
def noteAct (v : Byte) (shows : Bool) (k' : Nat) : Action Nat W where
  run s l := if l = noteSeen shows s then
    some (k', { s with mem := fun y => if y = noteAddr then v else s.mem y }) else none
  uses _ := False
  writes _ := False
  sets _ := False
  usesFlags := False
  setsFlags := False
  loads _ a := shows = true ∧ a = noteAddr
  stores _ a := a = noteAddr

theorem noteAct_run {v : Byte} {shows : Bool} {k k' : Nat} {s s' : State} {l : W} (h : (noteAct v shows k).run s l = some (k', s')) :
    k' = k ∧ s' = { s with mem := fun y => if y = noteAddr then v else s.mem y } := by
  simp only [noteAct] at h
  split at h
  · cases h; exact ⟨rfl, rfl⟩
  · cases h

theorem noteAct_first (v : Byte) (k : Nat) {s : State} : (noteAct v false k).run s 0 =
    some (k, { s with mem := fun y => if y = noteAddr then v else s.mem y }) := by simp [noteAct, noteSeen]

theorem noteAct_fair (v : Byte) (shows : Bool) (k : Nat) :
    (noteAct v shows k).Fair ∧ (noteAct v shows k).Writes fun _ _ => [(noteAddr, v)] := by
  refine ⟨⟨fun s l k' s' h => ?_, fun X F A s t hst _ _ hl => ⟨fun _ => Iff.rfl, fun l => ?_⟩⟩, fun s l k' s' h => ?_,
    fun s l k' s' h w hw => by rw [List.mem_singleton.1 hw]; rfl, fun _ _ _ _ _ _ _ _ _ _ => rfl⟩
  · obtain ⟨rfl, rfl⟩ := noteAct_run h
    exact ⟨rfl, fun _ _ => rfl, fun a ha => if_neg ha⟩
  · have : noteSeen shows t = noteSeen shows s := by
      cases shows with
      | false => rfl
      | true => simp only [noteSeen, hst.mem noteAddr (hl _ ⟨rfl, rfl⟩)]
    simp only [noteAct, this]
    split
    · refine ⟨rfl, fun r h => hst.regs r fun hx => h ⟨hx, id⟩, fun h => hst.flags fun hx => h ⟨hx, id⟩, hst.gs, fun a h => ?_⟩
      by_cases e : a = noteAddr
      · simp only [e, if_true]
      · simp only [if_neg e]
        exact hst.mem a fun hx => h ⟨hx, e⟩
    · trivial
  · obtain ⟨rfl, rfl⟩ := noteAct_run h
    rfl

/-! ## The program -/

/-- The recursive program; its first block stores a byte, and that behind the call exchanges it. -/
def noteCode (k : Nat) : Option (Action Nat W) :=
  if k = 1 then some (noteAct 1 false 2) else if k = 15 then some (noteAct 2 true 16) else some (recScript k).act

/-- The bytes which an instruction of a script writes. -/
def ScriptOp.wr (s : State) : ScriptOp → List (W × Byte)
  | .call v _ => if InStack s then eightWrites (s.regs .rsp - 8) v 8 else []
  | _ => []

def noteWr (k : Nat) (s : State) (_ : W) : List (W × Byte) :=
  if k = 1 then [(noteAddr, 1)] else if k = 15 then [(noteAddr, 2)] else (recScript k).wr s

/-- The exchange is locked. -/
def noteProg : CoreGuest Nat W := coreOf noteCode noteWr (· = 15) (scriptSite recScript)

theorem ScriptOp.act_run {o : ScriptOp} {s s' : State} {l : W} {k' : Nat} (h : o.act.run s l = some (k', s')) :
    o.step s = some (l, k', s') := by
  simp only [act] at h
  split at h
  · next l' k1 s1 e =>
    split at h
    · next el => cases h; rw [e, el]
    · cases h
  · cases h

theorem eightWrites_range {p v : W} {w : W × Byte} (h : w ∈ eightWrites p v 8) : InRange w.1 p 8 := by
  simp only [eightWrites, List.mem_map, List.mem_range] at h
  obtain ⟨n, hn, rfl⟩ := h
  exact inRange_add hn (by omega)

theorem ScriptOp.writes_wr (o : ScriptOp) : o.act.Writes fun s _ => o.wr s where
  after s l k' s' h := by
    have h := ScriptOp.act_run h
    cases o with
    | snip c k | halt => cases h
    | go k | test r k1 k2 | cmp r k | jz k1 k2 => cases h; rfl
    | set r v k | up k =>
      simp only [step] at h
      split at h <;> cases h <;> rfl
    | call v k =>
      simp only [step] at h
      split at h
      · next hi =>
        cases h
        simp only [wr, if_pos hi]
        exact eightWrites_write _ _ _
      · cases h
  stores s l k' s' h w hw := by
    cases o with
    | call v k =>
      simp only [wr] at hw
      split at hw
      · next hi => exact ⟨hi, eightWrites_range hw⟩
      · cases hw
    | _ => cases hw
  dep X F A s t l hst hu _ _ := by
    cases o with
    | call v k =>
      have : t.regs .rsp = s.regs .rsp := hst.regs _ fun hx => hu _ hx rfl
      have hi : InStack t ↔ InStack s := by unfold InStack; rw [this]
      simp only [wr, this]
      by_cases h : InStack s
      · rw [if_pos h, if_pos (hi.2 h)]
      · rw [if_neg h, if_neg (mt hi.1 h)]
    | _ => rfl

theorem note_fair (k : Nat) (o : Action Nat W) (h : noteCode k = some o) : o.Fair ∧ o.Writes (noteWr k) := by
  unfold noteCode at h
  unfold noteWr
  by_cases h1 : k = 1
  · simp only [if_pos h1] at h ⊢
    cases h; exact noteAct_fair _ _ _
  · by_cases h2 : k = 15
    · simp only [if_neg h1, if_pos h2] at h ⊢
      cases h; exact noteAct_fair _ _ _
    · simp only [if_neg h1, if_neg h2] at h ⊢
      cases h; exact ⟨ScriptOp.fair _, ScriptOp.writes_wr _⟩

/-- A step is one of the script, or one on the shared byte. -/
theorem note_run {k k' : Nat} {s s' : State} {l : W} {o : Action Nat W} (h : noteCode k = some o)
    (hs : o.run s l = some (k', s')) : o = (recScript k).act ∧ (scriptGuest recScript).step k s l k' s' ∨
      (∃ v b, o = noteAct v b k') ∧ recScript k = .go k' ∧ ∃ v, s' = { s with mem := fun y => if y = noteAddr then v else s.mem y } := by
  unfold noteCode at h
  by_cases h1 : k = 1
  · subst h1
    rw [if_pos rfl] at h
    cases h
    obtain ⟨rfl, rfl⟩ := noteAct_run hs
    exact .inr ⟨⟨_, _, rfl⟩, rfl, _, rfl⟩
  · rw [if_neg h1] at h
    by_cases h2 : k = 15
    · subst h2
      rw [if_pos rfl] at h
      cases h
      obtain ⟨rfl, rfl⟩ := noteAct_run hs
      exact .inr ⟨⟨_, _, rfl⟩, rfl, _, rfl⟩
    · rw [if_neg h2] at h
      cases h
      exact .inl ⟨rfl, ScriptOp.act_run hs⟩

/-! ## Two threads -/

/-- A thread's area. -/
def pairArea (i : Bool) (x : W) : Prop :=
  InRange x (pairBase i) regionSize ∨ lowEnd i ≤ x.toNat ∧ x.toNat < lowEnd i + 0x710

/-- The threads do not look at the flags, nor at their stacks below the stack pointer. -/
def noteBlind (i : Bool) : Blind Nat where
  regs _ _ := False
  flags _ := True
  mem _ sp x := InRange x (pairBase i) regionSize ∨ lowEnd i ≤ x.toNat ∧ x.toNat < sp.toNat ∧ x.toNat < lowEnd i + 0x710
  frame _ := none

/-- The threads at the beginning; one has written a byte which has not got to memory. -/
def note0 (b : Bool → W) : Cores Bool Nat :=
  ⟨memOf pairLog, fun i => if i then [(0x8008, 7)] else [], fun _ => 0, pairCpu b⟩

theorem note_free (i : Bool) : ¬ pairArea i noteAddr ∧ ¬ pairArea i 0x8008 := by
  cases i <;> constructor <;> (unfold pairArea InRange; decide)

theorem note_sp {b : Bool → W} {tr : List (Bool × W)} {M : Cores Bool Nat} (hr : CoreRun noteProg (note0 b) tr M) (i : Bool) :
    M.sp i = pairSp i (M.pos i) := by
  have key : ∀ {M : Cores Bool Nat} {i : Bool} {ws : List (W × Byte)} {l : W} {k' : Nat} {c : Cpu}, M.sp i = pairSp i (M.pos i) →
      noteProg.step (M.pos i) (M.at_ i) ws l k' c → c.regs .rsp = pairSp i k' := by
    rintro M i ws l k' c ih ⟨o, s', h1, h2, rfl, rfl⟩
    rcases note_run h1 h2 with ⟨_, h⟩ | ⟨_, h, v, rfl⟩
    · exact script_sp_step (pair_ok i _) ih h
    · have := pair_ok i (M.pos i)
      rw [h] at this
      exact ih.trans this.1.symm
  induction hr with
  | start => cases i <;> rfl
  | @move tr M M' j ls _ hs ih =>
    by_cases e : i = j
    · subst e
      cases hs with
      | own _ hs => simpa [Cores.sp, Cores.put] using key ih hs
      | locked _ _ hs => simpa [Cores.sp, Cores.sync] using key ih hs
      | drain => exact ih
    · cases hs <;> simpa [Cores.sp, Cores.put, Cores.sync, Cores.drain, e] using ih
  | @pass tr M j c k' _ hx ih =>
    by_cases e : i = j
    · subst e
      have := script_sp_pass (s := M.at_ i) (pair_ok i _) ih hx
      have this : (M.cpu i).regs .rsp = pairSp i k' := this
      simpa [Cores.sp, Cores.put] using this
    · simpa [Cores.sp, Cores.put, e] using ih

theorem pair_area {i : Bool} {k : Nat} {x : W} (h : ∃ a ∈ pairView i k, InRange x a.at_ 8) :
    lowEnd i ≤ x.toNat ∧ x.toNat < lowEnd i + 0x710 := by
  obtain ⟨a, ha, h⟩ := h
  obtain ⟨h3, h4⟩ := pair_bounds.view i k a ha
  have := lowEnd_le i
  unfold InRange at h
  bv_omega

theorem note_loses (b : Bool → W) :
    CoreLoses noteCode noteWr (· = 15) (scriptSite recScript) noteBlind pairBase pairArea (note0 b) where
  rsp i k := by rintro (h | h) <;> cases h
  region i k sp x hx := .inl hx
  hidden i k sp x := by
    rintro (h | h)
    · exact .inl h
    · exact .inr ⟨h.1, h.2.2⟩
  apart i j x := pair_apart
  waits i j _ w hw := by
    cases i with
    | false => cases hw
    | true => rw [List.mem_singleton.1 hw]; exact (note_free j).2
  reads tr M i o hr e := by
    have hs := note_sp hr i
    refine ⟨fun _ h => h.elim, fun _ => ?_, fun a ha => ?_⟩
    · unfold noteCode at e
      split at e
      · cases e; exact id
      · split at e
        · cases e; exact id
        · cases e
          show ¬ (recScript (M.pos i)).usesFlags
          unfold recScript; split <;> exact id
    · have free : a = noteAddr → ¬ (noteBlind i).mem (M.pos i) (M.sp i) a ∧ ∀ j, j ≠ i → ¬ pairArea j a := by
        rintro rfl
        refine ⟨?_, fun j _ => (note_free j).1⟩
        rintro (h | h)
        · exact (note_free i).1 (.inl h)
        · exact (note_free i).1 (.inr ⟨h.1, h.2.2⟩)
      unfold noteCode at e
      split at e
      · cases e; exact free ha.2
      · split at e
        · cases e; exact free ha.2
        · cases e
          obtain ⟨h1, h2⟩ := pair_bounds.sp i (M.pos i)
          have hl := lowEnd_le i
          cases e : recScript (M.pos i) with
          | up k1 =>
            rw [e] at ha
            have ha : InRange a (M.sp i) 8 := ha.2
            rw [hs] at ha ⊢
            have h3 : lowEnd i ≤ a.toNat ∧ a.toNat < lowEnd i + 0x710 := by
              unfold InRange at ha
              bv_omega
            refine ⟨?_, fun j hj h => hj (pair_apart h (.inr h3))⟩
            rintro (hh | hh)
            · exact pair_stack h3.1 h3.2 hh
            · unfold InRange at ha
              bv_omega
          | _ => rw [e] at ha; exact ha.elim
  spares tr M i o hr e := by
    have hs := note_sp hr i
    refine ⟨nofun, fun a ha => ?_⟩
    have free : a = noteAddr → ¬ InRange a (pairBase i) regionSize ∧ ∀ j, j ≠ i → ¬ pairArea j a := by
      rintro rfl
      exact ⟨fun h => (note_free i).1 (.inl h), fun j _ => (note_free j).1⟩
    unfold noteCode at e
    split at e
    · cases e; exact free ha
    · split at e
      · cases e; exact free ha
      · cases e
        obtain ⟨h1, h2⟩ := pair_bounds.sp i (M.pos i)
        have hl := lowEnd_le i
        have key : lowEnd i ≤ a.toNat ∧ a.toNat < lowEnd i + 0x710 := by
          cases e : recScript (M.pos i) with
          | call v k1 =>
            rw [e] at ha
            have ha : InRange a (M.sp i - 8) 8 := ha.2
            rw [hs] at ha
            unfold InRange at ha
            bv_omega
          | _ => rw [e] at ha; exact ha.elim
        exact ⟨pair_stack key.1 key.2, fun j hj h => hj (pair_apart h (.inr key))⟩
  goes tr M i o l k' s' hr e hs := by
    refine ⟨fun r hr _ => hr.elim, fun _ _ => trivial, fun a ha hn => ?_, rfl⟩
    rcases note_run e hs with ⟨rfl, h⟩ | ⟨_, _, v, rfl⟩
    · rcases ha with ha | ha
      · exact .inl ha
      · have : 0x6100 ≤ lowEnd i := by cases i <;> decide
        exact .inr ⟨ha.1, (ScriptOp.step_leads h).2 a (by omega) ha.2.1 hn, ha.2.2⟩
    · exact ha

/-- A step of the activations remains one if something else is written. -/
theorem Moves.elsewhere {m : ProgSem} {loose : Prop} {xs ys : List XAct} {s s' : State} (h : Moves m loose xs s ys s)
    (hm : ∀ a ∈ ys, s'.mem.read64 a.at_ = s.mem.read64 a.at_) : Moves m loose xs s ys s' := by
  cases h with
  | work _ => exact .work hm
  | @block a as b _ _ ht _ =>
    refine .block ht fun x hx => ?_
    rcases List.mem_cons.1 hx with rfl | hx
    · exact hm { x with done := x.done ++ [.block b] } List.mem_cons_self
    · exact hm x (List.mem_cons_of_mem _ hx)
  | @call a as f _ _ p hc _ hg =>
    have e := hm ⟨f, [], s.mem.read64 p, p⟩ List.mem_cons_self
    simp only at e
    have := Moves.call (m := m) (loose := loose) (s := s) (s' := s') (a := a) (as := as) p hc (fun x hx => hm x (List.mem_cons_of_mem _ hx))
      (by rw [e]; exact hg)
    rw [e] at this
    exact this
  | ret hc _ => exact .ret hc hm
  | @tail a as f _ _ hc ht _ =>
    refine .tail hc ht fun x hx => ?_
    rcases List.mem_cons.1 hx with rfl | hx
    · exact hm { x with func := f, done := [] } List.mem_cons_self
    · exact hm x (List.mem_cons_of_mem _ hx)
  | unwind hl _ => exact .unwind hl hm

theorem note0_view (b : Bool → W) (i j : Bool) {x : W} (hx : pairArea j x) : (note0 b).view i x = memOf pairLog x := by
  cases i with
  | false => rfl
  | true =>
    refine if_neg fun e => ?_
    subst e
    exact (note_free j).2 hx

theorem note_follows (b : Bool → W) :
    noteProg.Follows recProg.fullSem (fun _ => .rax) recProg.fullSnipAt (fun _ _ _ _ => False) noteBlind pairView False pairBase
      pairArea (note0 b) where
  begins i a ha := by
    obtain ⟨h1, h2, h3⟩ := pair0_begins i a ha
    refine ⟨h1, ?_, fun h => h.elim⟩
    rw [← h2]
    exact read64_eq _ _ _ fun x hx => note0_view b i i (.inr (pair_area ⟨a, ha, hx⟩))
  stack tr M i _ a ha x hx := .inr (pair_area ⟨a, ha, hx⟩)
  moves tr M i ws l k' c hr _ h := by
    obtain ⟨o, s', h1, h2, rfl, rfl⟩ := h
    have hsp : (M.at_ i).regs .rsp = pairSp i (M.pos i) := note_sp hr i
    have e : afterWrites (M.view i) (noteWr (M.pos i) (M.at_ i) l) = s'.mem := (note_fair _ _ h1).2.after _ _ _ _ h2
    rw [e]
    show Moves _ _ _ _ _ s'
    rcases note_run h1 h2 with ⟨_, h⟩ | ⟨_, h, v, rfl⟩
    · exact script_moves (pair_ok i _) hsp h
    · have hk := pair_ok i (M.pos i)
      rw [h] at hk
      refine (hk.2 _).elsewhere fun a ha => read64_eq _ _ _ fun x hx => if_neg fun e => ?_
      subst e
      exact (note_free i).1 (.inr (pair_area ⟨a, ha, hx⟩))
  sites tr M i c k' hr hx := by
    have hsp : (M.at_ i).regs .rsp = pairSp i (M.pos i) := note_sp hr i
    have hk := pair_ok i (M.pos i)
    obtain ⟨p1, p2⟩ := pair_bounds.sp i (M.pos i)
    have hl := lowEnd_le i
    have hx : scriptSite recScript (M.pos i) = some (c, k') := hx
    simp only [scriptSite] at hx
    cases e : recScript (M.pos i) with
    | halt | go _ | test _ _ _ | set _ _ _ | cmp _ _ | jz _ _ | call _ _ | up _ => rw [e] at hx; cases hx
    | snip c k1 =>
      rw [e] at hx hk
      cases hx
      obtain ⟨_, ⟨h1, h2⟩, a, as, ev, bl, hev, e1, e2, ht, hc⟩ := hk
      have ha : a ∈ pairView i (M.pos i) := by rw [e1]; simp
      obtain ⟨h3, h4⟩ := h2 a ha
      refine ⟨a, as, ev, .blk bl, e1, e2, ht, hc _ hsp, fun y hy => ?_, fun x hx hh => ?_, fun x hx => ?_,
        fun r hr => hr.elim id id, fun _ => trivial, fun hi => hi.elim⟩
      · obtain ⟨h7, h8⟩ := h2 y hy
        have hb : pairBase i = 0x100000 ∨ pairBase i = 0x1000000 := by cases i <;> simp [pairBase, sigBase]
        refine ⟨?_, ?_, ?_⟩ <;> refine sep_of_le (by decide) (by decide) ?_ <;> (try rw [hsp]) <;>
          (try unfold regionSize) <;> rcases hb with hb | hb <;> (try rw [hb]) <;> constructor <;> bv_omega
      · have near := pair_area ⟨a, ha, hx⟩
        rcases hh with hh | hh
        · exact pair_stack near.1 near.2 hh
        · rw [hsp] at hh
          unfold InRange at hx
          bv_omega
      · rcases hx with hx | hx
        · exact hx
        · refine .inr ?_
          rw [hsp] at hx ⊢
          simp only [Place.width, InRange] at hx
          bv_omega
  frame i k r := by
    refine ⟨nofun, ?_⟩
    rintro ⟨a, as, e, hi, _⟩
    exact hi.elim

/-- The hypotheses of C123 are met. -/
theorem C123_example (b : Bool → W) : noteProg.Refines noteBlind pairArea (note0 b) :=
  C123_full_partial Small.fullBinaryOk recProg_ok.full (note_follows b) (C123_respects note_fair (note_loses b))
    (fun i => recorded_region (pair0_recorded b i) rfl fun _ hx => note0_view b i i (.inl hx))
    fun _ M i _ => pair_depth i (M.pos i)

/-- One thread has stored the byte; the other does not see it yet. -/
theorem note_waits : ∃ tr M, CoreRun noteProg (note0 fun _ => 0) tr M ∧ M.view false noteAddr = 1 ∧ M.view true noteAddr = 0 := by
  have h1 := CoreRun.start (P := noteProg) (M0 := note0 fun _ => 0).pass (i := false) (c := demoPush) (k' := 1) rfl
  have h2 := h1.move (i := false) (.own (l := 0) (by show ¬ ((1 : Nat) = 15); decide) ⟨_, _, rfl, noteAct_first _ _, rfl, rfl⟩)
  refine ⟨_, _, h2, ?_, ?_⟩ <;> decide +kernel

end Verif
