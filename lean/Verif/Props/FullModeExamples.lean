import Verif.Props.FullMode
import Verif.Props.UnwindExamples
import Verif.Props.PlanMachineExamples

/-!
# C89: example programs and attacks
-/

namespace Verif

/-- Full mode. -/
def fullFlags : InstrFlags := { shadowStack := "full" }

namespace Small
variable {p : Small}

/-- What the instrumenter does in full mode. -/
def fullPlan (p : Small) (f : Func) : Plan :=
  if p.noret.contains f || p.other.contains f then .skipped
  else ((instrumentFunction fullFlags p.skip p.code (fun _ => none) (p.bfunc f) {}).map Prod.fst).getD
    .skipped

theorem Ok.full (h : p.Ok) : BuiltFull fullFlags p.skip p.code p.bfunc p.fullPlan where
  full := by decide +kernel
  func := h.func
  entries _ _ := rfl
  exits _ _ := rfl
  left f _ hl := by
    rw [fullPlan, if_pos]
    simp only [bfunc] at hl
    simp only [Bool.or_eq_true, List.contains_iff_mem] at hl ⊢
    rcases hl with hl | hl
    · exact .inl hl
    · refine .inr ?_
      split at hl
      · assumption
      · exact absurd rfl hl
  plans f hf hn hr := by
    have hl : ¬ ((p.noret.contains f || p.other.contains f) = true) := by
      simp only [bfunc] at hn hr
      intro hl
      rw [hn, Bool.false_or, List.contains_iff_mem] at hl
      rw [if_pos hl] at hr
      revert hr
      decide +kernel
    refine ⟨fun _ => none, {}, { totalFunc := 1 }, ?_⟩
    rw [fullPlan, if_neg hl]
    unfold instrumentFunction
    simp [fullFlags]

/-- The program in action. -/
abbrev fullSem (p : Small) : ProgSem := semOf p.code p.info p.fullPlan (fun _ => False) (staysOf p.bfunc)

/-- Nothing is left out, and jumps lead to functions. -/
theorem fullOk (h1 : p.noret = []) (h2 : p.other = [])
    (h : ∀ f ∈ p.code.funcs, ∀ e ∈ p.edges, e.src ∈ p.exitsOf f →
      e.interproc = true → e.type ≠ .call → e.type ≠ .ret →
      e.sink = false ∧ ∃ g ∈ p.code.funcs, calleeAt p.code e.trg = some g)
    (hst : p.stubs = [] := by rfl) : ∀ f ∈ p.code.funcs, FullOk p.code p.info p.bfunc f := by
  refine fun f hf => ⟨fun b hb e he hu => ?_, fun hr => ?_, fun hn => ?_⟩
  · obtain ⟨k1, k2⟩ := mem_targets.mp he
    subst k2
    obtain ⟨hs, g, hg, hc⟩ := h f hf e k1 hb hu.1.1 hu.1.2.1 hu.1.2.2
    exact hu.2.2 ⟨g, hg, hu.1, hs, no_stub hst _, (calleeAt_iff _ _ _).mp hc⟩
  · simp [bfunc, h2] at hr
  · simp [bfunc, h1] at hn

theorem fullBinaryOk : FullBinaryOk p.binary {} p.code where
  normal := hg_normal
  entry _ _ := rfl
  exit _ _ _ _ _ := rfl

/-- The events of a walk. -/
def fullTrace (p : Small) (f : Func) (es : List Edge) : List Ev := (p.fullPlan f).trace (p.code.entry f) es

theorem fullStarts {f : Func} {t : List Ev} {b' : Blk} (es : List Edge) (hf : f ∈ p.code.funcs)
    (hw : p.walkEnd (p.code.entry f) es = some b') (ht : t <+: p.fullTrace f es) :
    StartsWith p.code p.fullPlan f t := by
  obtain ⟨t', ht⟩ := ht
  exact ⟨hf, t', es, b', walkEnd_walk hw, ht⟩

theorem fullEnds {f : Func} {t : List Ev} {b : Blk} (es : List Edge) (hf : f ∈ p.code.funcs)
    (hw : p.walkEnd (p.code.entry f) es = some b) (hx : b ∈ p.exitsOf f)
    (hr : isNonreturningCall (p.code.targets b) = false) (ht : t = p.fullTrace f es) :
    EndsAt p.code p.fullPlan f t b := ⟨hf, hx, hr, es, walkEnd_walk hw, ht⟩

theorem full_danger {f : Func} {t : List Ev} {b : Blk}
    (hst : StartsWith p.code p.fullPlan f (t ++ [.block b])) (hb : b ∈ p.danger) :
    p.fullSem.danger f (t ++ [.block b]) := by
  refine .inl ⟨hst, t, b, rfl, { addr := 4096 + 16 * b, writesMemory := true, outs := [.unknown] }, ?_, ?_⟩
  · simp [info, hb]
  · exact ⟨rfl, rfl, .unknown, by simp, .inl rfl⟩

/-- Where something dangerous can happen. -/
theorem risky_in (h : p.Ok) (S : List Func)
    (h1 : ∀ f ∈ p.code.funcs, ∀ b ∈ p.blocksOf f, b ∈ p.danger → f ∈ S)
    (h2 : ∀ f ∈ p.code.funcs, ∀ e ∈ p.edges, e.src ∈ p.blocksOf f → e.type = .call →
      e.sink = true → f ∈ S)
    (h3 : ∀ f ∈ p.code.funcs, ∀ e ∈ p.edges, e.src ∈ p.blocksOf f →
      ∀ g ∈ calleeAt p.code e.trg, g ∈ S → f ∈ S)
    {f : Func} (hr : Risky p.code p.info f) (hst : p.stubs = [] := by rfl) : f ∈ p.code.funcs → f ∈ S := by
  induction hr with
  | @block f b hb hd =>
    intro hf
    rcases hd with ⟨i, hi, _⟩ | ⟨e, he, hc, hu⟩
    · refine h1 f hf b hb ?_
      simp only [info] at hi
      split at hi
      · assumption
      · cases hi
    · obtain ⟨k1, k2⟩ := mem_targets.mp he
      subst k2
      rcases hu with hu | ⟨n, hn, _⟩
      · exact h2 f hf e k1 hb hc hu
      · exact nomatch (no_stub hst _).symm.trans hn.2.2
  | @call f g b e hb he hd hg ih =>
    intro hf
    obtain ⟨k1, k2⟩ := mem_targets.mp he
    subst k2
    have hc := (calleeAt_iff _ _ _).mpr hd.2.2.2
    obtain ⟨g', hg', hc'⟩ := (h.resolved e k1 hd.1 hd.2.1).resolve_left (by rw [no_stub hst]; nofun)
    rw [hc] at hc'
    cases hc'
    exact h3 f hf e k1 hb g hc (ih hg')
  | @jump f g b e hb he hj hg ih =>
    intro hf
    obtain ⟨k1, k2⟩ := mem_targets.mp he
    subst k2
    have hc := (calleeAt_iff _ _ _).mpr hj.2.2.2
    have hgf : g ∈ p.code.funcs := by
      obtain ⟨l, l', hl, _⟩ := hj.2.2.2
      have : g ∈ p.code.funcsAt e.trg := by rw [hl]; simp
      exact (List.mem_filter.mp this).1
    exact h3 f hf e k1 (h.exitIn f hf _ hb) g hc (ih hgf)

end Small

/-! ## Programs which light mode does not protect -/

/-- Example for `C89_protected_partial`: the recursive program of `C45_refuted_recursion`, that with the
tail jump and that with the call before a check of the fast path are protected in full mode. -/
example : (∀ f, Protected recProg.fullSem f) ∧ (∀ f, Protected tailProg.fullSem f) ∧
    ∀ f, Protected slowProg.fullSem f :=
  ⟨C89_protected_partial recProg_ok.full (Small.fullOk rfl rfl (by decide +kernel)),
   C89_protected_partial tailProg_ok.full (Small.fullOk rfl rfl (by decide +kernel)),
   C89_protected_partial slowProg_ok.full (Small.fullOk rfl rfl (by decide +kernel))⟩

/-- Also the one whose function catches an exception (`C86_refuted_handlers`). -/
example : ∀ f, UProtected (semOn Flow catchProg.code catchProg.fullPlan catchProg.info (fun _ => False)
    (staysOf catchProg.bfunc)) f :=
  C89_exceptions_partial catchProg_ok.full (Small.fullOk rfl rfl (by decide +kernel)) catchProg_ok.handlers

/-- Also on the machine, and with several threads. -/
example (frame : Func → Reg) : (∀ f, EProtected recProg.fullSem frame
      (recProg.binary.FullSnippet {} recProg.code recProg.fullPlan) 0x100000 f) ∧
    TeamProtected (semOn Flow catchProg.code catchProg.fullPlan catchProg.info (fun _ => False)
      (staysOf catchProg.bfunc)) frame (catchProg.binary.FullSnippet {} catchProg.code catchProg.fullPlan)
      Needs (fun i => 0x100000 + 0x1000000 * BitVec.ofNat 64 i) :=
  ⟨C89_machine_partial Small.fullBinaryOk recProg_ok.full (Small.fullOk rfl rfl (by decide +kernel)) frame _,
   C89_threads_partial Small.fullBinaryOk catchProg_ok.full (Small.fullOk rfl rfl (by decide +kernel))
    catchProg_ok.handlers frame _⟩

/-- Example: a function of `.init` which only calls a harmless function, and one that does not return
and writes. -/
def initProg : Small where
  blocks := [[0, 1], [2], [3]]
  exits := [[1], [2], [3]]
  edges :=
    [{ id := 0, src := 0, trg := 2, type := .call, interproc := true },
     { id := 1, src := 0, trg := 1, type := .callFt },
     retEdge 2 1, retEdge 3 2, retEdge 4 3]
  danger := [3]
  other := [0]
  noret := [2]

theorem initProg_ok : initProg.Ok where
  sums := by decide +kernel
  plans := by decide +kernel
  addr := by decide +kernel
  oneCall := by decide +kernel
  entry := by decide +kernel
  closed := by decide +kernel
  ret := by decide +kernel
  exits := by decide +kernel
  handler := by decide +kernel
  nodup := by decide +kernel
  after := by decide +kernel
  resolved := by decide +kernel
  exitIn := by decide +kernel
  nodupEdges := by decide +kernel
  lone := by decide +kernel
  callOut := by decide +kernel


theorem initProg_full : ∀ f ∈ initProg.code.funcs, FullOk initProg.code initProg.info initProg.bfunc f := by
  have key : ∀ f ∈ initProg.code.funcs, ∀ e ∈ initProg.edges, e.src ∈ initProg.exitsOf f →
      e.interproc = true → e.type ≠ .call → e.type = .ret := by decide
  have hout : ∀ f ∈ initProg.code.funcs, f ∈ [(2 : Func)] → (initProg.bfunc f).noReturn = true := by
    decide
  refine fun f hf => ⟨fun b hb e he hu => ?_, fun hr hk => ?_, fun hn b hb e he g hg hj => ?_⟩
  · obtain ⟨h1, rfl⟩ := Small.mem_targets.mp he
    exact hu.1.2.2 (key f hf e h1 hb hu.1.1 hu.1.2.1)
  · exact hout f hf (Small.risky_in initProg_ok [2] (by decide +kernel) (by decide +kernel)
      (by decide +kernel) hk rfl hf)
  · obtain ⟨h1, rfl⟩ := Small.mem_targets.mp he
    exact absurd (key f hf e h1 hb hj.1.1 hj.1.2.1) hj.1.2.2

example : (∀ f, Protected initProg.fullSem f) ∧ (initProg.bfunc 0).region = ".init" ∧
    (initProg.bfunc 0).noReturn = false ∧ Risky initProg.code initProg.info 2 :=
  ⟨C89_protected_partial initProg_ok.full initProg_full, by decide +kernel, by decide,
   .block (b := 3) (by decide)
    (.inl ⟨{ addr := 4096 + 16 * 3, writesMemory := true, outs := [.unknown] }, by simp [Small.info, initProg],
      rfl, rfl, .unknown, by simp, .inl rfl⟩)⟩

/-! ## The attack on the recursive program fails -/

example : PRun recProg.fullSem (.run [⟨1, [], 7, 7, none⟩] []) .killed := by
  have hreg : ∀ f, ¬ recProg.fullSem.inReg f := fun _ h => h
  have e0 : recProg.fullSem.trace 1 ([] ++ [.push]) :=
    Small.fullStarts (b' := 3) [] (by decide) (by decide) (by decide +kernel)
  have e1 : recProg.fullSem.trace 1 ([.push] ++ [.block 3]) :=
    Small.fullStarts (b' := 3) [] (by decide) (by decide) (by decide +kernel)
  have e2 : recProg.fullSem.trace 1 ([.push, .block 3] ++ [.block 4]) :=
    Small.fullStarts (b' := 4) [recProg.edges[6]] (by decide) (by decide) (by decide +kernel)
  have e3 : recProg.fullSem.trace 1 ([.push, .block 3, .block 4] ++ [.check]) :=
    Small.fullStarts (b' := 4) [recProg.edges[6]] (by decide) (by decide) (by decide +kernel)
  have d1 : recProg.fullSem.trace 0 ([] ++ [.push]) :=
    Small.fullStarts (b' := 0) [] (by decide) (by decide) (by decide +kernel)
  have d2 : recProg.fullSem.trace 0 ([.push] ++ [.block 0]) :=
    Small.fullStarts (b' := 0) [] (by decide) (by decide) (by decide +kernel)
  have d3 : recProg.fullSem.trace 0 ([.push, .block 0] ++ [.block 2]) :=
    Small.fullStarts (b' := 2) [recProg.edges[1]] (by decide) (by decide) (by decide +kernel)
  have d4 : recProg.fullSem.trace 0 ([.push, .block 0, .block 2] ++ [.check]) :=
    Small.fullStarts (b' := 2) [recProg.edges[1]] (by decide) (by decide) (by decide +kernel)
  have hcall : recProg.fullSem.calls 1 [.push, .block 3] 0 := by
    refine ⟨by decide, .inl ⟨3, ⟨e1, ⟨[.push], .inl rfl⟩, ?_⟩, recProg.edges[5], by decide,
      .inl (Small.direct (by decide) (by decide) (by decide +kernel))⟩⟩
    rintro ⟨_, t', es, _, _, h⟩
    rw [show recProg.fullPlan 1 = .full [3] [4] from
      recProg_ok.full.plan_eq (by decide) (by decide) (by decide +kernel)] at h
    cases es <;> cases h
  have r0 : PRun recProg.fullSem (.run [⟨1, [], 7, 7, none⟩] []) _ := .refl _
  have r1 := r0.step (.push (a := ⟨1, [], 7, 7, none⟩) e0 (hreg _))
  have r2 := r1.step (.block (a := ⟨1, [.push], 7, 7, none⟩) e1)
  have r3 := r2.step (.call (a := ⟨1, [.push, .block 3], 7, 7, none⟩) (g := 0) 8 hcall)
  have r4 := r3.step (.push (a := ⟨0, [], 8, 8, none⟩) d1 (hreg _))
  have r5 := r4.step (.block (a := ⟨0, [.push], 8, 8, none⟩) d2)
  have r6 := r5.step (.attack (a := ⟨0, [.push, .block 0], 8, 8, none⟩)
    (Small.full_danger (t := [.push]) d2 (by decide)) (.cons 8 (.cons 666 .nil)))
  have r7 := r6.step (.block (a := ⟨0, [.push, .block 0], 8, 8, none⟩) d3)
  have r8 := r7.step (.check (a := ⟨0, [.push, .block 0, .block 2], 8, 8, none⟩) (n := 0) d4 (hreg _)
    (by decide) rfl)
  have r9 := r8.step (.ret (a := ⟨0, [.push, .block 0, .block 2, .check], 8, 8, none⟩)
    ⟨2, Small.fullEnds [recProg.edges[1]] (by decide) (by decide) (by decide) (by decide)
      (by decide +kernel)⟩ rfl)
  have r10 := r9.step (.block (a := ⟨1, [.push, .block 3], 7, 666, none⟩) e2)
  exact r10.step (.fail (a := ⟨1, [.push, .block 3, .block 4], 7, 666, none⟩) e3
    (fun h => h.elim) (by decide))

/-! ## C89 is false in general -/

/-- **C89 fails for functions of other sections than `.text`**: a function which writes has no check. -/
theorem C89_refuted_section : ∃ co info bf plan f,
    BuiltFull fullFlags [] co bf plan ∧ f ∈ co.funcs ∧ (∀ f, (bf f).noReturn = false) ∧
    (∀ f ∈ co.funcs, ∀ b ∈ co.exitBlocks f, ∀ e ∈ co.targets b, ¬ TailJump e) ∧
    ¬ Protected (semOf co info plan (fun _ => False) (staysOf bf)) f := by
  refine ⟨_, outProg.info, _, _, 0, outProg_ok.full, by decide, fun _ => rfl, ?_, fun h => ?_⟩
  · intro f hf b hb e he hj
    obtain ⟨h1, rfl⟩ := Small.mem_targets.mp he
    have : ∀ e ∈ outProg.edges, e.type = .ret := by decide
    exact hj.2.2 (this e h1)
  refine h.unchecked 7 666 ?_
  have e1 : outProg.fullSem.trace 0 ([] ++ [.block 0]) :=
    Small.fullStarts (b' := 0) [] (by decide) (by decide) (by decide +kernel)
  have r0 : PRun outProg.fullSem (.run [⟨0, [], 7, 7, none⟩] []) _ := .refl _
  have r1 := r0.step (.block (a := ⟨0, [], 7, 7, none⟩) e1)
  have r2 := r1.step (.attack (a := ⟨0, [.block 0], 7, 7, none⟩)
    (Small.full_danger (t := []) e1 (by decide)) (.cons 666 .nil))
  exact r2.step (.hijack (a := ⟨0, [.block 0], 7, 666, none⟩)
    ⟨0, Small.fullEnds [] (by decide) (by decide) (by decide) (by decide) (by decide +kernel)⟩
    (Small.mayReturn (by decide)) (by decide))

/-- A function which ends by jumping to an unknown place. -/
def jumpProg : Small where
  blocks := [[0]]
  exits := [[0]]
  edges := [{ id := 0, src := 0, trg := 0, type := .indirect, sink := true, interproc := true }]
  danger := []

theorem jumpProg_ok : jumpProg.Ok where
  sums := by decide +kernel
  plans := by decide +kernel
  addr := by decide +kernel
  oneCall := by decide +kernel
  entry := by decide +kernel
  closed := by decide +kernel
  ret := by decide +kernel
  exits := by decide +kernel
  handler := by decide +kernel
  nodup := by decide +kernel
  after := by decide +kernel
  resolved := by decide +kernel
  exitIn := by decide +kernel
  nodupEdges := by decide +kernel
  lone := by decide +kernel
  callOut := by decide +kernel

/-- **C89 fails for jumps to unknown places**: the check comes before the jump, and the code there, which
returns to the caller, may overwrite the return address. -/
theorem C89_refuted_jump : ∃ co info bf plan f,
    BuiltFull fullFlags [] co bf plan ∧ f ∈ co.funcs ∧ (∀ f, (bf f).noReturn = false) ∧
    (∀ f, (bf f).region = ".text") ∧
    ¬ Protected (semOf co info plan (fun _ => False) (staysOf bf)) f := by
  refine ⟨_, jumpProg.info, _, _, 0, jumpProg_ok.full, by decide, fun _ => rfl, fun _ => rfl, fun h => ?_⟩
  refine h.unchecked 7 666 ?_
  have hreg : ∀ f, ¬ jumpProg.fullSem.inReg f := fun _ h => h
  have e1 : jumpProg.fullSem.trace 0 ([] ++ [.push]) :=
    Small.fullStarts (b' := 0) [] (by decide) (by decide) (by decide +kernel)
  have e2 : jumpProg.fullSem.trace 0 ([.push] ++ [.block 0]) :=
    Small.fullStarts (b' := 0) [] (by decide) (by decide) (by decide +kernel)
  have e3 : jumpProg.fullSem.trace 0 ([.push, .block 0] ++ [.check]) :=
    Small.fullStarts (b' := 0) [] (by decide) (by decide) (by decide +kernel)
  have en : EndsAt jumpProg.code jumpProg.fullPlan 0 [.push, .block 0, .check] 0 :=
    Small.fullEnds [] (by decide) (by decide) (by decide) (by decide) (by decide +kernel)
  have r0 : PRun jumpProg.fullSem (.run [⟨0, [], 7, 7, none⟩] []) _ := .refl _
  have r1 := r0.step (.push (a := ⟨0, [], 7, 7, none⟩) e1 (hreg _))
  have r2 := r1.step (.block (a := ⟨0, [.push], 7, 7, none⟩) e2)
  have r3 := r2.step (.check (a := ⟨0, [.push, .block 0], 7, 7, none⟩) (n := 0) e3 (hreg _)
    (by decide) rfl)
  have r4 := r3.step (.attack (a := ⟨0, [.push, .block 0, .check], 7, 7, none⟩)
    (.inr (.inr ⟨0, en, jumpProg.edges[0], by decide,
      unknownJump_other ⟨by decide, by decide, by decide⟩ (.inl (by decide))⟩)) (.cons 666 .nil))
  exact r4.step (.hijack (a := ⟨0, [.push, .block 0, .check], 7, 666, none⟩) ⟨0, en⟩
    (Small.mayReturn (by decide)) (by decide))

end Verif
