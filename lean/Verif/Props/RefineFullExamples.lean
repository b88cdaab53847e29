import Verif.Props.RefineFull
import Verif.Props.RefinePlanExamples
import Verif.Props.FullModeExamples

/-! C105: programs instrumented in full mode, and one which is killed. -/

namespace Verif

namespace Small
variable {p : Small}

/-- The snippets of full mode, with their places. -/
def fullSnipAt (p : Small) : Func → Ev → Place → Code → State → W → Prop :=
  p.binary.FullSnippetAt {} p.code p.fullPlan

theorem fullPush_snip {f : Func} {b : Blk} {ps cs : List Blk} (hp : p.fullPlan f = .full ps cs) (hm : b ∈ ps)
    {r : W} {s : State} (hr : s.regs .rsp = r) : p.fullSnipAt f .push (.blk b) demoPush s r :=
  ⟨ps, cs, hp, hm, rfl, (atHeight_blk hr).1⟩

theorem fullCheck_snip {f : Func} {b : Blk} {ps cs : List Blk} (hp : p.fullPlan f = .full ps cs) (hm : b ∈ cs)
    {r : W} {s : State} (hr : s.regs .rsp = r) : p.fullSnipAt f .check (.blk b) demoCheck s r :=
  ⟨ps, cs, hp, hm, rfl, (atHeight_blk hr).2⟩

theorem fullCalls {ok : Edge → Prop} {f g : Func} {t : List Ev} {b : Blk} (e : Edge)
    (hc : b ∉ (p.fullPlan f).checked)
    (hst : (semOn ok p.code p.fullPlan p.info (fun _ => False) (staysOf p.bfunc)).trace f (t ++ [.block b]))
    (hg : g ∈ p.code.funcs) (he : e ∈ p.code.targets b) (hd : DirectCall p.code e g) :
    (semOn ok p.code p.fullPlan p.info (fun _ => False) (staysOf p.bfunc)).calls f (t ++ [.block b]) g := by
  refine ⟨hg, .inl ⟨b, ⟨hst, ⟨t, .inl rfl⟩, ?_⟩, e, he, .inl hd⟩⟩
  rintro ⟨_, t', es, b', _, h⟩
  refine hc (Plan.checkAfter (c := p.code.entry f) (es := es) ?_)
  rw [← h]
  have := checkAfter_mid (b := b) t t'
  simpa using this

/-- In full mode, with exceptions. -/
abbrev fullExcSem (p : Small) : ProgSem := semOn Flow p.code p.fullPlan p.info (fun _ => False) (staysOf p.bfunc)

theorem fullStartsX {f : Func} {t : List Ev} {b' : Blk} (es : List Edge) (hf : f ∈ p.code.funcs)
    (hw : p.flowEnd (p.code.entry f) es = some b') (ht : t <+: p.fullTrace f es) :
    p.fullExcSem.trace f t := by
  obtain ⟨t', ht⟩ := ht
  exact ⟨hf, t', es, b', flowEnd_walk hw, ht⟩

theorem fullEndsX {f : Func} {t : List Ev} {b : Blk} (es : List Edge) (hf : f ∈ p.code.funcs)
    (hw : p.flowEnd (p.code.entry f) es = some b) (hx : b ∈ p.exitsOf f)
    (hr : isNonreturningCall (p.code.targets b) = false) (ht : t = p.fullTrace f es) :
    p.fullExcSem.complete f t := ⟨b, hf, hx, hr, es, flowEnd_walk hw, ht⟩

end Small

/-! ## A recursive program

In light mode it is not protected (`C45_refuted_recursion`). -/

/-- `f0` returns at once, or calls `f1`, which calls `f0`. -/
def recScript : Nat → ScriptOp
  | 0 => .snip demoPush 1
  | 1 => .go 2
  | 2 => .test .rbx 3 18
  | 3 => .call 0x402000 4
  | 4 => .snip demoPush 5
  | 5 => .go 6
  | 6 => .call 0x403000 7
  | 7 => .snip demoPush 8
  | 8 => .go 9
  | 9 => .go 10
  | 10 => .snip demoCheck 11
  | 11 => .up 12
  | 12 => .go 13
  | 13 => .snip demoCheck 14
  | 14 => .up 15
  | 15 => .go 16
  | 16 => .snip demoCheck 17
  | 17 => .up 20
  | 18 => .snip demoCheck 19
  | 19 => .up 20
  | _ => .halt

def recSp : Nat → W
  | 4 | 5 | 6 | 12 | 13 | 14 => 0x6ff8
  | 7 | 8 | 9 | 10 | 11 => 0x6ff0
  | 20 => 0x7008
  | _ => 0x7000

/-- The activations of the recursive call. -/
def deep (t : List Ev) : List XAct :=
  ⟨0, t, 0x403000, 0x6ff0⟩ :: upon 1 [.push, .block 3] [.push, .block 0, .block 1]

def recView : Nat → List XAct
  | 0 => [base []]
  | 1 => [base [.push]]
  | 2 => [base [.push, .block 0]]
  | 3 | 15 => [base [.push, .block 0, .block 1]]
  | 4 => upon 1 [] [.push, .block 0, .block 1]
  | 5 => upon 1 [.push] [.push, .block 0, .block 1]
  | 6 | 12 => upon 1 [.push, .block 3] [.push, .block 0, .block 1]
  | 7 => deep []
  | 8 => deep [.push]
  | 9 => deep [.push, .block 0]
  | 10 => deep [.push, .block 0, .block 2]
  | 11 => deep [.push, .block 0, .block 2, .check]
  | 13 => upon 1 [.push, .block 3, .block 4] [.push, .block 0, .block 1]
  | 14 => upon 1 [.push, .block 3, .block 4, .check] [.push, .block 0, .block 1]
  | 16 => [base [.push, .block 0, .block 1, .block 2]]
  | 17 => [base [.push, .block 0, .block 1, .block 2, .check]]
  | 18 => [base [.push, .block 0, .block 2]]
  | 19 => [base [.push, .block 0, .block 2, .check]]
  | _ => []

theorem recScript_ok (k : Nat) :
    Scripted recProg.fullSem recProg.fullSnipAt False recSp recView k (recScript k) := by
  have tr0 : ∀ {t} (_ : t <+: [Ev.push, .block 0, .block 1, .block 2, .check]), recProg.fullSem.trace 0 t := by
    intro t ht
    refine Small.fullStarts (b' := 2) [recProg.edges[0], recProg.edges[3]] (by decide) (by decide) ?_
    rw [show recProg.fullTrace 0 [recProg.edges[0], recProg.edges[3]] =
      [Ev.push, .block 0, .block 1, .block 2, .check] by decide +kernel]
    exact ht
  have tr2 : ∀ {t} (_ : t <+: [Ev.push, .block 0, .block 2, .check]), recProg.fullSem.trace 0 t := by
    intro t ht
    refine Small.fullStarts (b' := 2) [recProg.edges[1]] (by decide) (by decide) ?_
    rw [show recProg.fullTrace 0 [recProg.edges[1]] = [Ev.push, .block 0, .block 2, .check] by decide +kernel]
    exact ht
  have tr1 : ∀ {t} (_ : t <+: [Ev.push, .block 3, .block 4, .check]), recProg.fullSem.trace 1 t := by
    intro t ht
    refine Small.fullStarts (b' := 4) [recProg.edges[6]] (by decide) (by decide) ?_
    rw [show recProg.fullTrace 1 [recProg.edges[6]] = [Ev.push, .block 3, .block 4, .check] by decide +kernel]
    exact ht
  have p0 : recProg.fullPlan 0 = .full [0] [2] :=
    recProg_ok.full.plan_eq (by decide) (by decide) (by decide +kernel)
  have p1 : recProg.fullPlan 1 = .full [3] [4] :=
    recProg_ok.full.plan_eq (by decide) (by decide) (by decide +kernel)
  match k with
  | 0 => exact ⟨rfl, by decide, base [], [], .push, 0, nofun, rfl, rfl, tr0 (by decide),
      fun s hs => Small.fullPush_snip p0 (by decide) hs⟩
  | 1 => exact ⟨rfl, fun s => .block (a := base [.push]) (tr0 (by decide)) (sameSlots_refl _ _)⟩
  | 2 => exact ⟨⟨rfl, fun s => .block (a := base [.push, .block 0]) (b := 1) (tr0 (by decide)) (sameSlots_refl _ _)⟩,
      rfl, fun s => .block (a := base [.push, .block 0]) (b := 2) (tr2 (by decide)) (sameSlots_refl _ _)⟩
  | 3 =>
    refine ⟨by decide, by decide, .inr ⟨by unfold GuardLike; decide, base [.push, .block 0, .block 1], [], 1, rfl, rfl, ?_⟩⟩
    exact Small.fullCalls (t := [.push, .block 0]) recProg.edges[2] (by decide +kernel) (tr0 (by decide)) (by decide)
      (by decide) (Small.direct (by decide) (by decide) (by decide +kernel))
  | 4 => exact ⟨rfl, by decide, _, _, .push, 3, nofun, rfl, rfl, tr1 (by decide),
      fun s hs => Small.fullPush_snip p1 (by decide) hs⟩
  | 5 => exact ⟨rfl, fun s => .block (a := ⟨1, [.push], 0x402000, 0x6ff8⟩) (tr1 (by decide)) (sameSlots_refl _ _)⟩
  | 6 =>
    refine ⟨by decide, by decide, .inr ⟨by unfold GuardLike; decide, ⟨1, [.push, .block 3], 0x402000, 0x6ff8⟩, _, 0, rfl, rfl, ?_⟩⟩
    exact Small.fullCalls (t := [.push]) recProg.edges[5] (by decide +kernel) (tr1 (by decide)) (by decide)
      (by decide) (Small.direct (by decide) (by decide) (by decide +kernel))
  | 7 => exact ⟨rfl, by decide, _, _, .push, 0, nofun, rfl, rfl, tr2 (by decide),
      fun s hs => Small.fullPush_snip p0 (by decide) hs⟩
  | 8 => exact ⟨rfl, fun s => .block (a := ⟨0, [.push], 0x403000, 0x6ff0⟩) (tr2 (by decide)) (sameSlots_refl _ _)⟩
  | 9 => exact ⟨rfl, fun s => .block (a := ⟨0, [.push, .block 0], 0x403000, 0x6ff0⟩) (tr2 (by decide))
      (sameSlots_refl _ _)⟩
  | 10 => exact ⟨rfl, by decide, _, _, .check, 2, nofun, rfl, rfl, tr2 (by decide),
      fun s hs => Small.fullCheck_snip p0 (by decide) hs⟩
  | 11 => exact ⟨by decide, fun s s' e => .ret (a := ⟨0, [.push, .block 0, .block 2, .check], 0x403000, 0x6ff0⟩)
      ⟨2, Small.fullEnds [recProg.edges[1]] (by decide) (by decide) (by decide) (by decide) (by decide +kernel)⟩
      (sameSlots_mem e)⟩
  | 12 => exact ⟨rfl, fun s => .block (a := ⟨1, [.push, .block 3], 0x402000, 0x6ff8⟩) (tr1 (by decide))
      (sameSlots_refl _ _)⟩
  | 13 => exact ⟨rfl, by decide, _, _, .check, 4, nofun, rfl, rfl, tr1 (by decide),
      fun s hs => Small.fullCheck_snip p1 (by decide) hs⟩
  | 14 => exact ⟨by decide, fun s s' e => .ret (a := ⟨1, [.push, .block 3, .block 4, .check], 0x402000, 0x6ff8⟩)
      ⟨4, Small.fullEnds [recProg.edges[6]] (by decide) (by decide) (by decide) (by decide) (by decide +kernel)⟩
      (sameSlots_mem e)⟩
  | 15 => exact ⟨rfl, fun s => .block (a := base [.push, .block 0, .block 1]) (tr0 (by decide)) (sameSlots_refl _ _)⟩
  | 16 => exact ⟨rfl, by decide, base [.push, .block 0, .block 1, .block 2], [], .check, 2, nofun, rfl, rfl,
      tr0 (by decide), fun s hs => Small.fullCheck_snip p0 (by decide) hs⟩
  | 17 => exact ⟨by decide, fun s s' e => .ret (a := base [.push, .block 0, .block 1, .block 2, .check])
      ⟨2, Small.fullEnds [recProg.edges[0], recProg.edges[3]] (by decide) (by decide) (by decide) (by decide)
        (by decide +kernel)⟩ (sameSlots_mem e)⟩
  | 18 => exact ⟨rfl, by decide, base [.push, .block 0, .block 2], [], .check, 2, nofun, rfl, rfl,
      tr2 (by decide), fun s hs => Small.fullCheck_snip p0 (by decide) hs⟩
  | 19 => exact ⟨by decide, fun s s' e => .ret (a := base [.push, .block 0, .block 2, .check])
      ⟨2, Small.fullEnds [recProg.edges[1]] (by decide) (by decide) (by decide) (by decide)
        (by decide +kernel)⟩ (sameSlots_mem e)⟩
  | n + 20 => exact trivial

/-- The hypotheses of C105 are met. -/
theorem C105_example (a b : W) : (scriptGuest recScript).Refines scriptBlind 0 (script0 a b).state := by
  refine C105_same_behaviour_partial Small.fullBinaryOk recProg_ok.full (frame := fun _ => .rax)
    (view := recView) (script_follows_of (fun _ _ _ _ => id) recScript_ok rfl (script0_begins a b) fun _ _ _ => id)
    (script_respects _ fun k => by unfold recScript; split <;> exact id) (script0_recorded a b) ?_
  intro tr k s _
  have : (recView k).length ≤ 3 := by
    unfold recView
    split <;> simp [upon, deep]
  unfold regionSize
  omega

theorem recScript_runs : ∃ tr s, BareRun (scriptGuest recScript) 0 (script0 0 0).state tr 20 s :=
  ⟨_, _, cast (by rw [show (bareRun recScript 18 0 (script0 0 0).state).2.1 = 20 by decide +kernel])
    (bareRun_run recScript 18 .start)⟩

/-! ## A program which catches exceptions

In light mode such programs may be unprotected (`C86_refuted_handlers`). -/

/-- `f1` throws or returns. -/
def fullCatchScript : Nat → ScriptOp
  | 0 => .snip demoPush 1
  | 1 => .go 2
  | 2 => .test .rbx 3 15
  | 3 => .call 0x402000 4
  | 4 => .snip demoPush 5
  | 5 => .go 6
  | 6 => .test .rax 7 11
  | 7 => .snip demoCheck 8
  | 8 => .up 9
  | 9 => .go 10
  | 10 => .snip demoCheck 17
  | 11 => .up 12
  | 12 => .go 13
  | 13 => .go 14
  | 14 => .snip demoCheck 16
  | 15 => .snip demoCheck 18
  | 16 => .up 19
  | 17 => .up 19
  | 18 => .up 19
  | _ => .halt

def fullCatchSp : Nat → W
  | 4 | 5 | 6 | 7 | 8 | 11 => 0x6ff8
  | 19 => 0x7008
  | _ => 0x7000

def fullCatchView : Nat → List XAct
  | 0 => [base []]
  | 1 => [base [.push]]
  | 2 => [base [.push, .block 0]]
  | 3 | 9 | 12 => [base [.push, .block 0, .block 2]]
  | 4 => upon 1 [] [.push, .block 0, .block 2]
  | 5 => upon 1 [.push] [.push, .block 0, .block 2]
  | 6 | 7 | 11 => upon 1 [.push, .block 5] [.push, .block 0, .block 2]
  | 8 => upon 1 [.push, .block 5, .check] [.push, .block 0, .block 2]
  | 10 => [base [.push, .block 0, .block 2, .block 3]]
  | 13 => [base [.push, .block 0, .block 2, .block 4]]
  | 14 => [base [.push, .block 0, .block 2, .block 4, .block 3]]
  | 15 => [base [.push, .block 0, .block 1]]
  | 16 => [base [.push, .block 0, .block 2, .block 4, .block 3, .check]]
  | 17 => [base [.push, .block 0, .block 2, .block 3, .check]]
  | 18 => [base [.push, .block 0, .block 1, .check]]
  | _ => []

theorem fullCatchScript_ok (k : Nat) :
    Scripted catchProg.fullExcSem catchProg.fullSnipAt True fullCatchSp fullCatchView k (fullCatchScript k) := by
  have tr0 : ∀ {t} (_ : t <+: [Ev.push, .block 0, .block 2, .block 3, .check]), catchProg.fullExcSem.trace 0 t := by
    intro t ht
    refine Small.fullStartsX (b' := 3) [catchProg.edges[1], catchProg.edges[3]] (by decide) (by decide) ?_
    rw [show catchProg.fullTrace 0 [catchProg.edges[1], catchProg.edges[3]] =
      [Ev.push, .block 0, .block 2, .block 3, .check] by decide +kernel]
    exact ht
  have tr2 : ∀ {t} (_ : t <+: [Ev.push, .block 0, .block 1, .check]), catchProg.fullExcSem.trace 0 t := by
    intro t ht
    refine Small.fullStartsX (b' := 1) [catchProg.edges[0]] (by decide) (by decide) ?_
    rw [show catchProg.fullTrace 0 [catchProg.edges[0]] = [Ev.push, .block 0, .block 1, .check] by decide +kernel]
    exact ht
  have tr3 : ∀ {t} (_ : t <+: [Ev.push, .block 0, .block 2, .block 4, .block 3, .check]),
      catchProg.fullExcSem.trace 0 t := by
    intro t ht
    refine Small.fullStartsX (b' := 3) [catchProg.edges[1], catchProg.edges[4], catchProg.edges[7]] (by decide) (by decide) ?_
    rw [show catchProg.fullTrace 0 [catchProg.edges[1], catchProg.edges[4], catchProg.edges[7]] =
      [Ev.push, .block 0, .block 2, .block 4, .block 3, .check] by decide +kernel]
    exact ht
  have tr1 : ∀ {t} (_ : t <+: [Ev.push, .block 5, .check]), catchProg.fullExcSem.trace 1 t := by
    intro t ht
    refine Small.fullStartsX (b' := 5) [] (by decide) (by decide) ?_
    rw [show catchProg.fullTrace 1 [] = [Ev.push, .block 5, .check] by decide +kernel]
    exact ht
  have p0 : catchProg.fullPlan 0 = .full [0] [1, 3] :=
    catchProg_ok.full.plan_eq (by decide) (by decide) (by decide +kernel)
  have p1 : catchProg.fullPlan 1 = .full [5] [5] :=
    catchProg_ok.full.plan_eq (by decide) (by decide) (by decide +kernel)
  match k with
  | 0 => exact ⟨rfl, by decide, base [], [], .push, 0, nofun, rfl, rfl, tr0 (by decide),
      fun s hs => Small.fullPush_snip p0 (by decide) hs⟩
  | 1 => exact ⟨rfl, fun s => .block (a := base [.push]) (tr0 (by decide)) (sameSlots_refl _ _)⟩
  | 2 => exact ⟨⟨rfl, fun s => .block (a := base [.push, .block 0]) (b := 2) (tr0 (by decide)) (sameSlots_refl _ _)⟩,
      rfl, fun s => .block (a := base [.push, .block 0]) (b := 1) (tr2 (by decide)) (sameSlots_refl _ _)⟩
  | 3 =>
    refine ⟨by decide, by decide, .inr ⟨by unfold GuardLike; decide, base [.push, .block 0, .block 2], [], 1, rfl, rfl, ?_⟩⟩
    exact Small.fullCalls (t := [.push, .block 0]) catchProg.edges[2] (by decide +kernel) (tr0 (by decide)) (by decide)
      (by decide) (Small.direct (by decide) (by decide) (by decide +kernel))
  | 4 => exact ⟨rfl, by decide, _, _, .push, 5, nofun, rfl, rfl, tr1 (by decide),
      fun s hs => Small.fullPush_snip p1 (by decide) hs⟩
  | 5 => exact ⟨rfl, fun s => .block (a := ⟨1, [.push], 0x402000, 0x6ff8⟩) (tr1 (by decide)) (sameSlots_refl _ _)⟩
  | 6 => exact ⟨⟨rfl, fun s => .work (sameSlots_refl _ _)⟩, rfl, fun s => .work (sameSlots_refl _ _)⟩
  | 7 => exact ⟨rfl, by decide, _, _, .check, 5, nofun, rfl, rfl, tr1 (by decide),
      fun s hs => Small.fullCheck_snip p1 (by decide) hs⟩
  | 8 => exact ⟨by decide, fun s s' e => .ret (a := ⟨1, [.push, .block 5, .check], 0x402000, 0x6ff8⟩)
      (Small.fullEndsX (b := 5) [] (by decide) (by decide) (by decide) (by decide) (by decide +kernel)) (sameSlots_mem e)⟩
  | 9 => exact ⟨rfl, fun s => .block (a := base [.push, .block 0, .block 2]) (tr0 (by decide)) (sameSlots_refl _ _)⟩
  | 10 => exact ⟨rfl, by decide, base [.push, .block 0, .block 2, .block 3], [], .check, 3, nofun, rfl, rfl,
      tr0 (by decide), fun s hs => Small.fullCheck_snip p0 (by decide) hs⟩
  | 11 => exact ⟨by decide, fun s s' e => .unwind (up := []) trivial (sameSlots_mem e)⟩
  | 12 => exact ⟨rfl, fun s => .block (a := base [.push, .block 0, .block 2]) (tr3 (by decide)) (sameSlots_refl _ _)⟩
  | 13 => exact ⟨rfl, fun s => .block (a := base [.push, .block 0, .block 2, .block 4]) (tr3 (by decide))
      (sameSlots_refl _ _)⟩
  | 14 => exact ⟨rfl, by decide, base [.push, .block 0, .block 2, .block 4, .block 3], [], .check, 3, nofun, rfl, rfl,
      tr3 (by decide), fun s hs => Small.fullCheck_snip p0 (by decide) hs⟩
  | 15 => exact ⟨rfl, by decide, base [.push, .block 0, .block 1], [], .check, 1, nofun, rfl, rfl,
      tr2 (by decide), fun s hs => Small.fullCheck_snip p0 (by decide) hs⟩
  | 16 => exact ⟨by decide, fun s s' e => .ret (a := base [.push, .block 0, .block 2, .block 4, .block 3, .check])
      (Small.fullEndsX (b := 3) [catchProg.edges[1], catchProg.edges[4], catchProg.edges[7]] (by decide) (by decide)
        (by decide) (by decide) (by decide +kernel)) (sameSlots_mem e)⟩
  | 17 => exact ⟨by decide, fun s s' e => .ret (a := base [.push, .block 0, .block 2, .block 3, .check])
      (Small.fullEndsX (b := 3) [catchProg.edges[1], catchProg.edges[3]] (by decide) (by decide)
        (by decide) (by decide) (by decide +kernel)) (sameSlots_mem e)⟩
  | 18 => exact ⟨by decide, fun s s' e => .ret (a := base [.push, .block 0, .block 1, .check])
      (Small.fullEndsX (b := 1) [catchProg.edges[0]] (by decide) (by decide) (by decide) (by decide) (by decide +kernel))
      (sameSlots_mem e)⟩
  | n + 19 => exact trivial

def fullCatchBound : Nat → Nat
  | 0 => 0
  | 1 | 2 | 3 | 4 => 1
  | 5 | 6 | 7 => 2
  | 8 | 9 | 10 | 11 | 12 | 13 | 14 => 3
  | 15 => 1
  | _ => 4

/-- The hypotheses of C105 with exceptions are met. -/
theorem C105_example_unwinding (a b : W) :
    (scriptGuest fullCatchScript).Refines scriptBlind 0 (script0 a b).state := by
  refine C105_unwinding_partial Small.fullBinaryOk catchProg_ok.full catchProg_ok.handlers (frame := fun _ => .rax)
    (view := fullCatchView)
    (script_follows_of (fun _ _ _ _ => id) fullCatchScript_ok rfl (script0_begins a b) fun _ _ _ => id)
    (script_respects _ fun k => by unfold fullCatchScript; split <;> exact id) (script0_recorded a b) ?_
  intro l k s ht
  have h1 := script_tally fullCatchBound (fun k => by
    match k with
    | 0 | 1 | 2 | 3 | 4 | 5 | 6 | 7 | 8 | 9 | 10 | 11 | 12 | 13 | 14 | 15 | 16 | 17 | 18 =>
      simp [fullCatchScript, fullCatchBound]
    | n + 19 => trivial) ht
  have h2 : fullCatchBound k ≤ 4 := by
    unfold fullCatchBound
    split <;> decide
  unfold regionSize
  omega

/-- An exception is thrown and caught. -/
theorem fullCatchScript_runs : ∃ tr s, BareRun (scriptGuest fullCatchScript) 0 (script0 1 0).state tr 19 s :=
  ⟨_, _, cast (by rw [show (bareRun fullCatchScript 12 0 (script0 1 0).state).2.1 = 19 by decide +kernel])
    (bareRun_run fullCatchScript 12 .start)⟩

/-! ## A conditional tail jump -/

/-- `f0` jumps to `f1` or goes on and returns. -/
def condProg : Small where
  blocks := [[0, 1], [2]]
  exits := [[0, 1], [2]]
  edges :=
    [{ id := 0, src := 0, trg := 2, type := .condTaken, interproc := true },
     { id := 1, src := 0, trg := 1, type := .condNotTaken },
     retEdge 2 1, retEdge 3 2]
  danger := []

/-- It does not jump. -/
def condScript : Nat → ScriptOp
  | 0 => .snip demoPush 1
  | 1 => .go 2
  | 2 => .snip demoCheck 3
  | 3 => .go 4
  | 4 => .snip demoCheck 5
  | 5 => .up 6
  | _ => .halt

def condSp : Nat → W
  | 6 => 0x7008
  | _ => 0x7000

def condView : Nat → List XAct
  | 0 => [base []]
  | 1 => [base [.push]]
  | 2 => [base [.push, .block 0]]
  | 3 => [base [.push, .block 0, .check]]
  | 4 => [base [.push, .block 0, .check, .block 1]]
  | 5 => [base [.push, .block 0, .check, .block 1, .check]]
  | _ => []

theorem condProg_plan : condProg.fullPlan 0 = .full [0] [0, 1] := by
  have : ¬ ((condProg.noret.contains 0 || condProg.other.contains 0) = true) := by decide
  rw [Small.fullPlan, if_neg this]
  unfold instrumentFunction
  simp [fullFlags]
  exact ⟨rfl, by decide +kernel⟩

theorem condScript_ok (k : Nat) :
    Scripted condProg.fullSem condProg.fullSnipAt False condSp condView k (condScript k) := by
  have tr0 : ∀ {t} (_ : t <+: [Ev.push, .block 0, .check, .block 1, .check]), condProg.fullSem.trace 0 t := by
    intro t ht
    refine Small.fullStarts (b' := 1) [condProg.edges[1]] (by decide) (by decide) ?_
    rw [show condProg.fullTrace 0 [condProg.edges[1]] =
      [Ev.push, .block 0, .check, .block 1, .check] by decide +kernel]
    exact ht
  have p0 := condProg_plan
  match k with
  | 0 => exact ⟨rfl, by decide, base [], [], .push, 0, nofun, rfl, rfl, tr0 (by decide),
      fun s hs => Small.fullPush_snip p0 (by decide) hs⟩
  | 1 => exact ⟨rfl, fun s => .block (a := base [.push]) (tr0 (by decide)) (sameSlots_refl _ _)⟩
  | 2 => exact ⟨rfl, by decide, base [.push, .block 0], [], .check, 0, nofun, rfl, rfl, tr0 (by decide),
      fun s hs => Small.fullCheck_snip p0 (by decide) hs⟩
  | 3 => exact ⟨rfl, fun s => .block (a := base [.push, .block 0, .check]) (tr0 (by decide)) (sameSlots_refl _ _)⟩
  | 4 => exact ⟨rfl, by decide, base [.push, .block 0, .check, .block 1], [], .check, 1, nofun, rfl, rfl,
      tr0 (by decide), fun s hs => Small.fullCheck_snip p0 (by decide) hs⟩
  | 5 => exact ⟨by decide, fun s s' e => .ret (a := base [.push, .block 0, .check, .block 1, .check])
      ⟨1, Small.fullEnds [condProg.edges[1]] (by decide) (by decide) (by decide) (by decide)
        (by decide +kernel)⟩ (sameSlots_mem e)⟩
  | n + 6 => exact trivial

def cond1 : LogState := after demoPush 9 demoPush (script0 0 0)

def cond2 : LogState := after demoCheck 11 demoCheck cond1

/-- The second check finds no entry. -/
theorem cond_killed : ArmedRun (scriptGuest condScript) 0 (script0 0 0).state [0, 0] .killed := by
  have e1 := after_crun (w := demoPush) (k := demoPush) (k' := []) (n := 9) (c := script0 0 0) (by decide +kernel)
  have e2 := after_crun (w := demoCheck) (k := demoCheck) (k' := []) (n := 11) (c := cond1) (by decide +kernel)
  have e3 := after_crun (w := demoCheck) (k := demoCheck) (k' := demoCheck.drop 13) (n := 11)
    (c := cond2) (by decide +kernel)
  have r1 : ArmedRun (scriptGuest condScript) 0 (script0 0 0).state _ _ := .step .start (.snip (k' := 1) rfl (crun_exits e1))
  have r2 := r1.step (.own (k' := 2) (s' := cond1.state) rfl)
  have r3 := r2.step (.snip (k' := 3) rfl (crun_exits e2))
  have r4 := r3.step (.own (k' := 4) (s' := cond2.state) rfl)
  exact r4.step (.trap rfl (crun_traps (c := cond2) (k := demoCheck.drop 14) e3))

/-- **C105 fails for functions with conditional tail jumps**: the check before the jump is executed also if the
jump is not taken, and the one at the return then kills the program although the original returns.  Of what
C105 asks, only the second field of `FuncOk` is not met. -/
theorem C105_refuted_conditional : ∃ B co info bf plan frame D view g s0, ∃ P : Guest Nat W,
    FullBinaryOk B {} co ∧
    (∀ f ∈ co.funcs, WellFormed co f ∧ (co.exitBlocks f).Nodup ∧
      (∀ b ∈ co.blocks f, ∀ e ∈ co.targets b, e.type = .callFt → Follow e) ∧
      (∀ b ∈ co.blocks f, ∀ e ∈ co.targets b, e.type = .call → e.sink = false →
        (∃ n, LibCall co e n) ∨ ∃ g ∈ co.funcs, DirectCall co e g) ∧
      (∀ b ∈ co.exitBlocks f, b ∈ co.blocks f) ∧
      (bf f).entryPoints = [co.entry f] ∧ (bf f).exitPoints = co.exitBlocks f ∧
      (bf f).noReturn = false ∧ (bf f).region = ".text" ∧
      ∃ an st st', instrumentFunction fullFlags [] co an (bf f) st = some (plan f, st')) ∧
    P.Follows (semOf co info plan (fun _ => False) (staysOf bf)) frame (B.FullSnippetAt {} co plan)
      (fun _ _ _ _ => False) D view False g 0 s0 ∧
    P.Respects D g 0 s0 ∧ Recorded g [] s0 ∧
    (∀ tr k s, BareRun P 0 s0 tr k s → 40 + 8 * (view k).length ≤ regionSize) ∧
    (∃ tr s, BareRun P 0 s0 tr 6 s) ∧ ∃ tr, ArmedRun P 0 s0 tr .killed := by
  refine ⟨condProg.binary, condProg.code, condProg.info, condProg.bfunc, condProg.fullPlan, fun _ => .rax,
    scriptBlind, condView, sigBase, (script0 0 0).state, scriptGuest condScript, Small.fullBinaryOk, ?_,
    script_follows_of (fun _ _ _ _ => id) condScript_ok rfl (script0_begins 0 0) fun _ _ _ => id,
    (script_respects _ fun k => by unfold condScript; split <;> exact id), script0_recorded 0 0, fun _ k _ _ => ?_, ?_, _, cond_killed⟩
  · intro f hf
    have h1 : ∀ f ∈ condProg.code.funcs, condProg.code.entry f ∈ condProg.blocksOf f ∧ (condProg.exitsOf f).Nodup ∧
      (∀ e ∈ condProg.edges, e.src ∈ condProg.blocksOf f → Flow e → e.trg ∈ condProg.blocksOf f) ∧
      (∀ b ∈ condProg.exitsOf f, b ∈ condProg.blocksOf f) := by decide +kernel
    have h2 : ∀ e ∈ condProg.edges, e.type ≠ .callFt ∧ e.type ≠ .call ∧ (e.type = .ret → ¬ Follow e) := by
      decide +kernel
    obtain ⟨k1, k2, k3, k4⟩ := h1 f hf
    refine ⟨⟨fun b e he => (Small.mem_targets.mp he).2, k1, fun b hb e he hfo => ?_,
      fun b e he => (h2 e (Small.mem_targets.mp he).1).2.2⟩, k2,
      fun b _ e he hc => absurd hc (h2 e (Small.mem_targets.mp he).1).1,
      fun b _ e he hc => absurd hc (h2 e (Small.mem_targets.mp he).1).2.1, k4, rfl, rfl, rfl, rfl,
      fun _ => none, {}, { totalFunc := 1 }, ?_⟩
    · obtain ⟨m1, m2⟩ := Small.mem_targets.mp he
      exact k3 e m1 (by rw [m2]; exact hb) hfo.flow
    · have : ¬ ((condProg.noret.contains f || condProg.other.contains f) = true) := by simp [condProg]
      rw [Small.fullPlan, if_neg this]
      unfold instrumentFunction
      simp [fullFlags]
  · have : (condView k).length ≤ 1 := by
      unfold condView
      split <;> simp
    unfold regionSize
    omega
  · exact ⟨_, _, cast (by rw [show (bareRun condScript 6 0 (script0 0 0).state).2.1 = 6 by decide +kernel])
      (bareRun_run condScript 6 .start)⟩

end Verif
