import Verif.Props.RefineTeamPlan
import Verif.Props.RefinePlanExamples

/-! A program with one thread is one with threads; C109 does not hold for all plans. -/

namespace Verif

variable {κ L : Type}

/-- A single thread. -/
def solo (k : κ) (s : State) : Squad Unit κ := ⟨s.mem, fun _ => k, fun _ => s.cpu⟩

/-- Its instrumented version. -/
def soloInst : Inst κ → Option (Squad Unit (Stand κ))
  | .run k s => some (solo (.own k) s)
  | .killed => none

theorem solo_put (M : Squad Unit κ) (k : κ) (s : State) : M.put () k s = solo k s := by
  simp [Squad.put, solo]

section
variable {P : Guest κ L} {k0 : κ} {s0 : State}

theorem solo_run {tr : List (Unit × L)} {M : Squad Unit κ} (h : SquadRun P (solo k0 s0) tr M) :
    ∃ k s, M = solo k s ∧ BareRun P k0 s0 (tr.map Prod.snd) k s := by
  induction h with
  | start => exact ⟨_, _, rfl, .start⟩
  | @step tr M i ls k' s' _ hs ih =>
    obtain ⟨k, s, rfl, ih⟩ := ih
    refine ⟨k', s', solo_put _ _ _, ?_⟩
    have := ih.step hs
    rw [List.map_append, List.map_map]
    rw [show Prod.snd ∘ Prod.mk i = (id : L → L) from rfl, List.map_id]
    exact this

theorem run_solo {tr : List L} {k : κ} {s : State} (h : BareRun P k0 s0 tr k s) :
    SquadRun P (solo k0 s0) (tr.map (Prod.mk ())) (solo k s) := by
  induction h with
  | start => exact .start
  | @step tr ls k k' s s' _ hs ih =>
    have := ih.step (i := ()) hs
    rw [solo_put, ← List.map_append] at this
    exact this

/-- The steps of a snippet. -/
theorem solo_snippet {w : Code} {k' : κ} : ∀ (n : Nat) {r : Code} {s : State} {tr : List (Unit × L)},
    ArmedSquad P (solo k0 s0) tr (some (solo (.busy w r k') s)) →
    (∀ s', run w n r s = some (.exit s') → ArmedSquad P (solo k0 s0) tr (some (solo (.own k') s'))) ∧
    (∀ s', run w n r s = some (.trap s') → ArmedSquad P (solo k0 s0) tr none) := by
  intro n
  induction n with
  | zero => intro r s tr _; exact ⟨nofun, nofun⟩
  | succ n ih =>
    intro r s tr h
    cases r with
    | nil =>
      refine ⟨fun s' e => ?_, fun s' e => ?_⟩
      · have := h.step (i := ()) (.leave rfl)
        rw [solo_put] at this
        simp only [run, Option.some.injEq, Outcome.exit.injEq] at e
        subst e
        rw [List.map_nil, List.append_nil] at this
        exact this
      · simp [run] at e
    | cons i r =>
      simp only [run]
      cases e : exec i s with
      | next s1 =>
        have := h.step (i := ()) (.instr rfl (.next e))
        rw [solo_put] at this
        exact ih (by simpa using this)
      | goto l s1 =>
        cases et : target l w with
        | none => exact ⟨fun _ e => by simp [et] at e, fun _ e => by simp [et] at e⟩
        | some r1 =>
          have := h.step (i := ()) (.instr rfl (.goto e et))
          rw [solo_put] at this
          simp only [et]
          exact ih (by simpa using this)
      | trap s1 =>
        refine ⟨nofun, fun s' _ => ?_⟩
        have := h.step (i := ()) (.trap rfl e)
        simpa using this

/-- One thread of the instrumented program. -/
theorem solo_armed {tr : List L} {c : Inst κ} (h : ArmedRun P k0 s0 tr c) :
    ArmedSquad P (solo k0 s0) (tr.map (Prod.mk ())) (soloInst c) := by
  induction h with
  | start => exact .start
  | @step tr ls c c' _ hs ih =>
    cases hs with
    | own hs =>
      have := ih.step (i := ()) (.own rfl hs)
      rw [solo_put, ← List.map_append] at this
      exact this
    | snip hx he =>
      have := ih.step (i := ()) (.enter rfl hx)
      rw [solo_put, List.map_nil, List.append_nil] at this
      obtain ⟨n, he⟩ := he
      rw [List.append_nil]
      exact (solo_snippet n this).1 _ he
    | trap hx he =>
      have := ih.step (i := ()) (.enter rfl hx)
      rw [solo_put, List.map_nil, List.append_nil] at this
      obtain ⟨n, s', he⟩ := he
      rw [List.append_nil]
      exact (solo_snippet n this).2 _ he

variable {m : ProgSem} {frame : Func → Reg} {snip : Func → Ev → Place → Code → State → W → Prop}
  {spoils : Func → Ev → Place → Reg → Prop} {D : Blind κ} {view : κ → List XAct} {loose : Prop} {g : W}

theorem solo_blind (M : Squad Unit κ) : M.blind (fun _ => D) () = D := by
  obtain ⟨a, b, c, d⟩ := D
  simp [Squad.blind]

theorem Guest.Respects.solo (h : P.Respects D g k0 s0) (keep : Unit → κ → W → W → Prop)
    (hk : ∀ k sp x, InRange x g regionSize → keep () k sp x) :
    P.TeamRespects (fun _ => D) (fun _ => g) keep (solo k0 s0) where
  rsp _ := h.rsp
  region _ k sp x hx := ⟨h.region k sp x hx, hk k sp x hx⟩
  apart _ _ _ _ _ _ _ _ := rfl
  spares tr M i t l k' t' hr hst hs := by
    obtain ⟨k, s, rfl, hr'⟩ := solo_run hr
    rw [solo_blind] at hst
    obtain ⟨h1, h2, h3, h4⟩ := h.spares _ _ _ _ _ _ _ hr' hst hs
    exact ⟨h1, h2, fun j x hj => absurd rfl hj, h3, h4⟩
  forth tr M i t l k' s' hr hst hs := by
    obtain ⟨k, s, rfl, hr'⟩ := solo_run hr
    rw [solo_blind] at hst ⊢
    exact h.forth _ _ _ _ _ _ _ hr' hst hs
  back tr M i t l k' t' hr hst hs := by
    obtain ⟨k, s, rfl, hr'⟩ := solo_run hr
    rw [solo_blind] at hst ⊢
    exact h.back _ _ _ _ _ _ _ hr' hst hs

theorem Guest.Follows.solo (h : P.Follows m frame snip spoils D view loose g k0 s0) :
    P.TeamFollows m frame snip spoils (fun _ => D) (fun _ => view) loose (fun _ => g) (solo k0 s0) where
  begins _ := h.begins
  moves tr M i l k' s' hr hs := by
    obtain ⟨k, s, rfl, hr'⟩ := solo_run hr
    exact h.moves _ _ _ _ _ _ hr' hs
  sites tr M i c k' hr hx := by
    obtain ⟨k, s, rfl, hr'⟩ := solo_run hr
    obtain ⟨a, as, ev, pl, e1, e2, hS⟩ := h.sites _ _ _ _ _ hr' hx
    exact ⟨a, as, ev, pl, e1, e2, hS, fun x j _ hj => absurd rfl hj⟩
  frame _ := h.frame

end

/-- **C109 is false** of functions which end in a call of a function which does not return: the program of
`C104_refuted_nonreturning` has one thread. -/
theorem C109_refuted_nonreturning : ∃ B co info R T bf plan dead frame, ∃ (D : Unit → Blind Nat) (view : Unit → Nat → List XAct)
    (g : Unit → W) (M0 : Squad Unit Nat), ∃ P : Guest Nat W,
    BinaryOk B {} {} co info R bf dead frame ∧ Built {} [] co info R T bf plan ∧
    P.TeamFollows (semOf co info plan (inRegOf {} T) (staysOf bf)) frame
      (B.SnippetAt {} (fun f => (T f).jit (dead f)) co plan) (B.Spoils {} co dead) D view False g M0 ∧
    P.TeamRespects D g (stackOf g view) M0 ∧ (∀ i, Recorded (g i) [] (M0.at_ i)) ∧
    (∀ tr M i, SquadRun P M0 tr M → 40 + 8 * (view i (M.pos i)).length ≤ regionSize) ∧
    (∃ tr M, SquadRun P M0 tr M ∧ ∀ i, M.pos i = 8) ∧ ∃ tr, ArmedSquad P M0 tr none := by
  obtain ⟨B, co, info, R, T, bf, plan, dead, frame, D, view, g, s0, P, h1, h2, h3, h4, h5, h6, ⟨tr, s, h7⟩, tr', h8⟩ :=
    C104_refuted_nonreturning
  refine ⟨B, co, info, R, T, bf, plan, dead, frame, fun _ => D, fun _ => view, fun _ => g, solo 0 s0, P, h1, h2, h3.solo,
    h4.solo _ fun _ _ _ h => .inl h, fun _ => h5, fun tr M i hr => ?_, ⟨_, _, run_solo h7, fun _ => rfl⟩, _, solo_armed h8⟩
  obtain ⟨k, s, rfl, hr'⟩ := solo_run hr
  exact h6 _ _ _ hr'

end Verif
