import Verif.Props.Objects
import Verif.Props.MultiExamples

/-!
# C92: examples and a counterexample
-/

namespace Verif

namespace Small
variable {p : Small}

theorem tails_none (h : ∀ f ∈ p.code.funcs, ∀ e ∈ p.edges, e.src ∈ p.exitsOf f → e.interproc = true →
    e.type ≠ .call → e.type = .ret) : ∀ f ∈ p.code.funcs, TailsOk p.code p.sums f := by
  refine fun f hf => ⟨fun b hb e he hu => ?_, fun b hb e he _ _ hj => ?_⟩
  · obtain ⟨h1, rfl⟩ := mem_targets.mp he
    exact absurd (h f hf e h1 hb hu.1.1 hu.1.2.1) hu.1.2.2
  · obtain ⟨h1, rfl⟩ := mem_targets.mp he
    exact absurd (h f hf e h1 hb hj.1.1 hj.1.2.1) hj.1.2.2

/-- What is known about the program. -/
def data (p : Small) : ObjData := ⟨p.info, fun _ => {}, p.sums, p.bfunc, fun _ => []⟩

/-- The program as treated by the tool. -/
def obj (p : Small) : Obj := lightObj {} p.code p.info p.sums p.bfunc p.plan

end Small

/-! ## A program and a library -/

/-- `f0` calls `log` and then `strlen`. -/
def mainProg : Small where
  blocks := [[0, 1, 2]]
  exits := [[2]]
  edges :=
    [{ id := 0, src := 0, trg := 9, type := .call, interproc := true },
     { id := 1, src := 0, trg := 1, type := .callFt },
     { id := 2, src := 1, trg := 8, type := .call, interproc := true },
     { id := 3, src := 1, trg := 2, type := .callFt },
     retEdge 4 2]
  danger := []
  stubs := [(9, "log".toList), (8, "strlen".toList)]

theorem mainProg_ok : mainProg.Ok where
  sums := by decide +kernel
  plans := by decide +kernel
  addr := by decide +kernel
  oneCall := by decide +kernel
  entry := by decide +kernel
  closed := by decide +kernel
  ret := by decide +kernel
  exits := by decide +kernel
  handler := by decide +kernel
  nodup := by decide +kernel
  after := by decide +kernel
  resolved := by decide +kernel
  exitIn := by decide +kernel
  nodupEdges := by decide +kernel
  lone := by decide +kernel
  callOut := by decide +kernel

/-- `f0` writes, `f1` does not. -/
def libProg : Small where
  blocks := [[0], [1]]
  exits := [[0], [1]]
  edges := [retEdge 0 0, retEdge 1 1]
  danger := [0]

theorem libProg_ok : libProg.Ok where
  sums := by decide +kernel
  plans := by decide +kernel
  addr := by decide +kernel
  oneCall := by decide +kernel
  entry := by decide +kernel
  closed := by decide +kernel
  ret := by decide +kernel
  exits := by decide +kernel
  handler := by decide +kernel
  nodup := by decide +kernel
  after := by decide +kernel
  resolved := by decide +kernel
  exitIn := by decide +kernel
  nodupEdges := by decide +kernel
  lone := by decide +kernel
  callOut := by decide +kernel

/-- `--libs`. -/
def libFlags : InstrFlags := { libs := true }

/-- The two code objects. -/
def twoObjects : List BObject := [mainProg.object "/bin/prog" 1, libProg.object "/opt/liby.so" 1]

def twoData (o : BObject) : ObjData := if o.path = "/bin/prog" then mainProg.data else libProg.data

theorem two_considered : ∀ o ∈ twoObjects, Considered libFlags o := by
  have : isSystemCode "/bin/prog" = false ∧ isSystemCode "/opt/liby.so" = false := by decide +kernel
  intro o ho
  refine ⟨.inl rfl, fun h => ?_⟩
  simp only [twoObjects, List.mem_cons, List.not_mem_nil, or_false] at ho
  rcases ho with rfl | rfl
  · exact nomatch this.1.symm.trans h.2
  · exact nomatch this.2.symm.trans h.2

theorem Small.suitable {p : Small} (h : p.Ok) (path : String) (n : Nat)
    (hl : ∀ f ∈ p.code.funcs, NoCallAtCheck {} p.code (p.bfunc f))
    (hr : ∀ g ∈ p.code.funcs, ∀ c ∈ (p.sums g).callees, g < c)
    (ht : ∀ f ∈ p.code.funcs, TailsOk p.code p.sums f) (h1 : p.noret = []) (h2 : p.other = [])
    (h3 : p.skip = []) : Suitable libFlags [] (p.object path n) p.data where
  shown := p.shows path n
  code := h.code
  func := h.func
  view := h.view
  analysed := h.analysed
  table := rfl
  light _ f hf := ⟨hl f hf, h.built.covered (h.noRecursion hr) f hf, ht f hf, by
    have := Small.allIn h1 h2 h3 f hf
    rw [h3] at this
    exact this⟩
  full hn := absurd rfl hn

/-- Functions with numbers below 10 are those of the program. -/
def twoWho (f : Func) : {o : BObject // o ∈ twoObjects ∧ Considered libFlags o} × Func :=
  if f < 10 then (⟨twoObjects[0], List.getElem_mem _, two_considered _ (List.getElem_mem _)⟩, f)
  else (⟨twoObjects[1], List.getElem_mem _, two_considered _ (List.getElem_mem _)⟩, f - 10)

def twoBinds (n : List Char) (g : Func) : Prop := n = "log".toList ∧ g = 10 ∨ n = "strlen".toList ∧ g = 11

theorem two_suitable : ∀ o ∈ twoObjects, Suitable libFlags [] o (twoData o) := by
  intro o ho
  simp only [twoObjects, List.mem_cons, List.not_mem_nil, or_false] at ho
  rcases ho with rfl | rfl
  · rw [show twoData (mainProg.object "/bin/prog" 1) = mainProg.data from if_pos rfl]
    exact Small.suitable mainProg_ok _ _ (Small.calls_of (by decide +kernel)) (by decide +kernel)
      (Small.tails_none (by decide +kernel)) rfl rfl rfl
  · rw [show twoData (libProg.object "/opt/liby.so" 1) = libProg.data from
      if_neg (by change ¬ ("/opt/liby.so" = "/bin/prog"); decide +kernel)]
    exact Small.suitable libProg_ok _ _ (Small.calls_of (by decide +kernel)) (by decide +kernel)
      (Small.tails_none (by decide +kernel)) rfl rfl rfl

theorem two_bind : BindOk (fun o : {o : BObject // o ∈ twoObjects ∧ Considered libFlags o} => o.1.code)
    (fun o => staysOf (twoData o.1).bfunc) (fun o => unsafeIn libFlags o.1 (twoData o.1)) twoWho twoBinds where
  trusted n g hn hb := by
    rcases hb with ⟨rfl, rfl⟩ | ⟨rfl, rfl⟩
    · exact absurd hn (by rw [← C49_trusted_iff]; decide +kernel)
    · have h1 : (twoWho 11).2 = 1 := rfl
      have h2 : twoData (twoWho 11).1.1 = libProg.data :=
        if_neg (by change ¬ ("/opt/liby.so" = "/bin/prog"); decide +kernel)
      have h3 : ¬ ((libProg.sums 1).writes = true) := by decide +kernel
      simp only [unsafeIn, h1, h2]
      exact h3
  stays i f hf hs := by
    have : (twoData i.1).bfunc f = mainProg.bfunc f ∨ (twoData i.1).bfunc f = libProg.bfunc f := by
      unfold twoData
      split
      · exact .inl rfl
      · exact .inr rfl
    have hs : ((twoData i.1).bfunc f).noReturn = true := hs
    rcases this with e | e <;> rw [e] at hs <;> cases hs

/-- Example for `C92_run_partial`: the program and its library are protected, the library's function which
writes being called from the program. -/
example : ∃ res st, instrument libFlags [] twoObjects = some (res, st) ∧
    ∃ l : BObject → List (BFunc × Plan), (∀ o ∈ twoObjects, DoneTo libFlags [] twoObjects res o (l o)) ∧
      ∀ f, Protected (semAll Follow (fun o => objOf libFlags o.1 (twoData o.1) (l o.1)) twoWho twoBinds) f := by
  have hsome : (instrument libFlags [] twoObjects).isSome = true := by decide +kernel
  obtain ⟨⟨res, st⟩, h⟩ := Option.isSome_iff_exists.mp hsome
  exact ⟨res, st, h, C92_run_partial h rfl twoData (fun o ho _ => two_suitable o ho) two_bind⟩

/-- Both code objects are treated: the program's function, and the library's which writes, have a push
and a check. -/
example : mainProg.trace 0 [mainProg.edges[1], mainProg.edges[3]] =
      [.push, .block 0, .block 1, .block 2, .check] ∧
    libProg.trace 0 [] = [.push, .block 0, .check] ∧ libProg.trace 1 [] = [.block 1] := by decide +kernel

/-- Functions of the library have odd numbers, those of the program even ones. -/
def oddWho (f : Func) : Bool × Func := (decide (f % 2 = 1), f / 2)

/-- Only `strlen` is known to the loader; `log` is somewhere outside. -/
def lenBinds (n : List Char) (g : Func) : Prop := n = "strlen".toList ∧ g = 3

def mainObj (i : Bool) : Obj := (if i then libProg else mainProg).obj

/-- No check stands before a call. -/
theorem Built.atEnd_call {fl : InstrFlags} {skip : List Nat} {co : CodeObj} {info : StackInfo}
    {R : Func → RegFacts} {T : Sums} {bf : Func → BFunc} {plan : Func → Plan}
    (hb : Built fl skip co info R T bf plan)
    (hcall : ∀ f ∈ co.funcs, NoCallAtCheck fl co (bf f)) (hnr : ∀ f ∈ co.funcs, CallsCovered T f)
    (hleft : ∀ f ∈ co.funcs, LeftOk skip co T bf f) {f : Func} (hs : ¬ staysOf bf f) {t : List Ev} {b : Blk}
    {e : Edge} (hst : StartsWith co plan f (t ++ [.block b])) (he : e ∈ co.targets b) (hc : e.type = .call) :
    AtEnd co plan f (t ++ [.block b]) b := by
  refine ⟨hst, ⟨t, .inl rfl⟩, ?_⟩
  rintro ⟨hf, t', es, b', hw, ht⟩
  have hp := plan_pre hb hcall hf (hnr f hf) (hleft f hf) hs hw
  rw [← ht, List.append_assoc, List.append_assoc] at hp
  exact pre_noCall hp e he hc

theorem mainProg_atEnd {t : List Ev} {b : Blk} {e : Edge}
    (hst : StartsWith mainProg.code mainProg.plan 0 (t ++ [.block b])) (he : e ∈ mainProg.code.targets b)
    (hc : e.type = .call) : AtEnd mainProg.code mainProg.plan 0 (t ++ [.block b]) b :=
  mainProg_ok.built.atEnd_call (Small.calls_of (by decide +kernel))
    (mainProg_ok.built.covered (mainProg_ok.noRecursion (by decide +kernel))) (Small.allIn rfl rfl rfl)
    (Small.mayReturn (by decide)) hst he hc

/-- An attack across code objects is noticed: `log` calls both functions of the library, the first of
which overwrites the return address of the program's function; then `strlen` is called; and the check
fails. -/
theorem main_run : PRun (semAll Follow mainObj oddWho lenBinds) (.run [⟨0, [], 7, 7, none⟩] []) .killed := by
  have hreg : ¬ libProg.sem.inReg 0 := by
    change ¬ (useRegFrame {} (some (libProg.sums 0)) = true); decide +kernel
  have hreg0 : ¬ mainProg.sem.inReg 0 := by
    change ¬ (useRegFrame {} (some (mainProg.sums 0)) = true); decide +kernel
  let es : List Edge := [mainProg.edges[1], mainProg.edges[3]]
  have key : ∀ t, t <+: mainProg.trace 0 es → mainProg.sem.trace 0 t := fun t ht =>
    Small.starts (b' := 2) es (by decide) (by decide) ht
  have e1 : mainProg.sem.trace 0 ([] ++ [.push]) := key _ (by decide +kernel)
  have e2 : mainProg.sem.trace 0 ([.push] ++ [.block 0]) := key _ (by decide +kernel)
  have e3 : mainProg.sem.trace 0 ([.push, .block 0] ++ [.block 1]) := key _ (by decide +kernel)
  have e4 : mainProg.sem.trace 0 ([.push, .block 0, .block 1] ++ [.block 2]) := key _ (by decide +kernel)
  have e5 : mainProg.sem.trace 0 ([.push, .block 0, .block 1, .block 2] ++ [.check]) :=
    key _ (by decide +kernel)
  have d1 : libProg.sem.trace 0 ([] ++ [.push]) :=
    Small.starts (b' := 0) [] (by decide) (by decide) (by decide +kernel)
  have d2 : libProg.sem.trace 0 ([.push] ++ [.block 0]) :=
    Small.starts (b' := 0) [] (by decide) (by decide) (by decide +kernel)
  have d3 : libProg.sem.trace 0 ([.push, .block 0] ++ [.check]) :=
    Small.starts (b' := 0) [] (by decide) (by decide) (by decide +kernel)
  have d4 : libProg.sem.trace 1 ([] ++ [.block 1]) :=
    Small.starts (b' := 1) [] (by decide) (by decide) (by decide +kernel)
  have x1 : libProg.sem.complete 0 [.push, .block 0, .check] :=
    ⟨0, Small.ends [] (by decide) (by decide) (by decide) (by decide) (by decide +kernel)⟩
  have x2 : libProg.sem.complete 1 [.block 1] :=
    ⟨1, Small.ends [] (by decide) (by decide) (by decide) (by decide) (by decide +kernel)⟩
  have out : (mainObj false).outside Follow 0 [.push, .block 0] :=
    .inl ⟨0, mainProg_atEnd (t := [.push]) (e := mainProg.edges[0]) e2 (by decide) rfl, mainProg.edges[0],
      by decide, LibCall.unknown (n := "log".toList) ⟨rfl, rfl, by decide +kernel⟩
        (by rw [← C49_trusted_iff]; decide +kernel)⟩
  have r0 : PRun (semAll Follow mainObj oddWho lenBinds) (.run [⟨0, [], 7, 7, none⟩] []) _ := .refl _
  have r1 := r0.step (.push (a := ⟨0, [], 7, 7, none⟩) e1 hreg0)
  have r2 := r1.step (.block (a := ⟨0, [.push], 7, 7, none⟩) e2)
  have r3 := r2.step (.call (a := ⟨0, [.push, .block 0], 7, 7, none⟩) (g := 3) 8 ⟨by decide, .inr (.inl out)⟩)
  have r4 := r3.step (.block (a := ⟨3, [], 8, 8, none⟩) d4)
  have r5 := r4.step (.ret (a := ⟨3, [.block 1], 8, 8, none⟩) x2 rfl)
  have r6 := r5.step (.call (a := ⟨0, [.push, .block 0], 7, 7, none⟩) (g := 1) 9 ⟨by decide, .inr (.inl out)⟩)
  have r7 := r6.step (.push (a := ⟨1, [], 9, 9, none⟩) d1 hreg)
  have r8 := r7.step (.block (a := ⟨1, [.push], 9, 9, none⟩) d2)
  have r9 := r8.step (.attack (a := ⟨1, [.push, .block 0], 9, 9, none⟩)
    (Small.danger_write (p := libProg) (t := [.push]) d2 (by decide)) (.cons 9 (.cons 666 .nil)))
  have r10 := r9.step (.check (a := ⟨1, [.push, .block 0], 9, 9, none⟩) (n := 0) d3 hreg (by decide) rfl)
  have r11 := r10.step (.ret (a := ⟨1, [.push, .block 0, .check], 9, 9, none⟩) x1 rfl)
  have r12 := r11.step (.block (a := ⟨0, [.push, .block 0], 7, 666, none⟩) e3)
  have r13 := r12.step (.call (a := ⟨0, [.push, .block 0, .block 1], 7, 666, none⟩) (g := 3) 10
    ⟨by decide, .inr (.inr ⟨"strlen".toList, ⟨1, mainProg_atEnd (t := [.push, .block 0])
      (e := mainProg.edges[2]) e3 (by decide) rfl, mainProg.edges[2], by decide, rfl, rfl,
      by decide +kernel⟩, rfl, rfl⟩)⟩)
  have r14 := r13.step (.block (a := ⟨3, [], 10, 10, none⟩) d4)
  have r15 := r14.step (.ret (a := ⟨3, [.block 1], 10, 10, none⟩) x2 rfl)
  have r16 := r15.step (.block (a := ⟨0, [.push, .block 0, .block 1], 7, 666, none⟩) e4)
  exact r16.step (.fail (a := ⟨0, [.push, .block 0, .block 1, .block 2], 7, 666, none⟩) e5
    (fun h => absurd h hreg0) (by decide))

/-! ## A jump to a library -/

/-- `f0` jumps to `strlen`. -/
def stubProg : Small where
  blocks := [[0]]
  exits := [[0]]
  edges := [{ id := 0, src := 0, trg := 9, type := .direct, interproc := true }]
  danger := []
  stubs := [(9, "strlen".toList)]

theorem stubProg_ok : stubProg.Ok where
  sums := by decide +kernel
  plans := by decide +kernel
  addr := by decide +kernel
  oneCall := by decide +kernel
  entry := by decide +kernel
  closed := by decide +kernel
  ret := by decide +kernel
  exits := by decide +kernel
  handler := by decide +kernel
  nodup := by decide +kernel
  after := by decide +kernel
  resolved := by decide +kernel
  exitIn := by decide +kernel
  nodupEdges := by decide +kernel
  lone := by decide +kernel
  callOut := by decide +kernel

def stubObj (i : Bool) : Obj := (if i then libProg else stubProg).obj

/-- Example for `C92_protected_partial`: the jump leads to the library's second function, and the program
is protected. -/
theorem stub_run : PRun (semAll Follow stubObj oddWho lenBinds) (.run [⟨0, [], 7, 7, none⟩] [])
      (.run [⟨3, [], 7, 7, none⟩] []) ∧
    ∀ f, Protected (semAll Follow stubObj oddWho lenBinds) f := by
  have htails : ∀ f ∈ stubProg.code.funcs, TailsOk stubProg.code stubProg.sums f := by
    have key : ∀ e ∈ stubProg.edges, stubProg.code.linkage (stubProg.code.start e.trg) = some "strlen".toList ∧
        e.sink = false := by decide +kernel
    refine fun f hf => ⟨fun b hb e he hu => ?_, fun b hb e he g _ hj => ?_⟩
    · obtain ⟨h1, h2⟩ := key e (Small.mem_targets.mp he).1
      exact hu.2.1 ⟨_, h2, h1, (C49_trusted_iff _).mp (by decide +kernel)⟩
    · obtain ⟨h1, h2⟩ := key e (Small.mem_targets.mp he).1
      exact nomatch h1.symm.trans hj.2.2.1
  constructor
  · have e1 : stubProg.sem.trace 0 ([] ++ [.block 0]) :=
      Small.starts (b' := 0) [] (by decide) (by decide) (by decide +kernel)
    have x1 : EndsAt stubProg.code stubProg.plan 0 [.block 0] 0 :=
      Small.ends [] (by decide) (by decide) (by decide) (by decide) (by decide +kernel)
    have r0 : PRun (semAll Follow stubObj oddWho lenBinds) (.run [⟨0, [], 7, 7, none⟩] []) _ := .refl _
    have r1 := r0.step (.block (a := ⟨0, [], 7, 7, none⟩) e1)
    exact r1.step (.tail (a := ⟨0, [.block 0], 7, 7, none⟩) (g := 3) ⟨0, x1⟩
      ⟨by decide, .inr ⟨_, ⟨0, x1, stubProg.edges[0], by decide, ⟨rfl, by decide, by decide⟩, rfl,
        by decide +kernel⟩, rfl, rfl⟩⟩)
  · refine C92_protected_partial (fl := {}) (skip := [])
      (wr := fun i => Wr (if i then libProg else stubProg).sums) (fun i => ?_) ⟨?_, fun i f _ hs => ?_⟩
    · cases i
      · exact .light stubProg_ok.built fun f hf => ⟨Small.calls_of (p := stubProg) (by decide +kernel) f hf,
          stubProg_ok.built.covered (stubProg_ok.noRecursion (by decide +kernel)) f hf, htails f hf,
          Small.allIn rfl rfl rfl f hf⟩
      · exact .light libProg_ok.built fun f hf => ⟨Small.calls_of (p := libProg) (by decide +kernel) f hf,
          libProg_ok.built.covered (libProg_ok.noRecursion (by decide +kernel)) f hf,
          Small.tails_none (p := libProg) (by decide +kernel) f hf, Small.allIn rfl rfl rfl f hf⟩
    · rintro n g _ ⟨rfl, rfl⟩
      have : ¬ ((libProg.sums 1).writes = true) := by decide +kernel
      exact this
    · cases i <;> cases (show _ = true from hs)

/-! ## A library which replaces `malloc` -/

/-- `f0` calls `malloc`. -/
def allocProg : Small where
  blocks := [[0, 1]]
  exits := [[1]]
  edges :=
    [{ id := 0, src := 0, trg := 9, type := .call, interproc := true },
     { id := 1, src := 0, trg := 1, type := .callFt },
     retEdge 2 1]
  danger := []
  stubs := [(9, "malloc".toList)]

theorem allocProg_ok : allocProg.Ok where
  sums := by decide +kernel
  plans := by decide +kernel
  addr := by decide +kernel
  oneCall := by decide +kernel
  entry := by decide +kernel
  closed := by decide +kernel
  ret := by decide +kernel
  exits := by decide +kernel
  handler := by decide +kernel
  nodup := by decide +kernel
  after := by decide +kernel
  resolved := by decide +kernel
  exitIn := by decide +kernel
  nodupEdges := by decide +kernel
  lone := by decide +kernel
  callOut := by decide +kernel

theorem Small.treated {p : Small} (h : p.Ok) (hl : ∀ f ∈ p.code.funcs, NoCallAtCheck {} p.code (p.bfunc f))
    (hr : ∀ g ∈ p.code.funcs, ∀ c ∈ (p.sums g).callees, g < c)
    (ht : ∀ f ∈ p.code.funcs, TailsOk p.code p.sums f)
    (hx : ∀ f ∈ p.code.funcs, LeftOk p.skip p.code p.sums p.bfunc f) :
    Treated {} p.skip p.obj (Wr p.sums) :=
  .light h.built fun f hf => ⟨hl f hf, h.built.covered (h.noRecursion hr) f hf, ht f hf, hx f hf⟩

def allocObj (i : Bool) : Obj := (if i then libProg else allocProg).obj

/-- `malloc` is the library's first function, which writes unsafely. -/
def allocBinds (n : List Char) (g : Func) : Prop := n = "malloc".toList ∧ g = 1

/-- `f0` calls `malloc`, which overwrites the return address of `f0`. -/
theorem alloc_attack : PRun (semAll Follow allocObj oddWho allocBinds) (.run [⟨0, [], 7, 7, none⟩] [])
    (.hijacked 666) := by
  have hs : allocProg.plan 0 = .skipped := Small.skipped_of (by decide +kernel)
  have hreg : ¬ libProg.sem.inReg 0 := by
    change ¬ (useRegFrame {} (some (libProg.sums 0)) = true); decide +kernel
  have e1 : allocProg.sem.trace 0 ([] ++ [.block 0]) :=
    Small.starts (b' := 0) [] (by decide) (by decide) (by decide +kernel)
  have e2 : allocProg.sem.trace 0 ([.block 0] ++ [.block 1]) :=
    Small.starts (b' := 1) [allocProg.edges[1]] (by decide) (by decide) (by decide +kernel)
  have d1 : libProg.sem.trace 0 ([] ++ [.push]) :=
    Small.starts (b' := 0) [] (by decide) (by decide) (by decide +kernel)
  have d2 : libProg.sem.trace 0 ([.push] ++ [.block 0]) :=
    Small.starts (b' := 0) [] (by decide) (by decide) (by decide +kernel)
  have d3 : libProg.sem.trace 0 ([.push, .block 0] ++ [.check]) :=
    Small.starts (b' := 0) [] (by decide) (by decide) (by decide +kernel)
  have r0 : PRun (semAll Follow allocObj oddWho allocBinds) (.run [⟨0, [], 7, 7, none⟩] []) _ := .refl _
  have r1 := r0.step (.block (a := ⟨0, [], 7, 7, none⟩) e1)
  have r2 := r1.step (.call (a := ⟨0, [.block 0], 7, 7, none⟩) (g := 1) 8
    ⟨by decide, .inr (.inr ⟨"malloc".toList, ⟨0, Small.skipped_end (t' := []) hs e1 rfl, allocProg.edges[0],
      by decide, rfl, rfl, by decide +kernel⟩, rfl, rfl⟩)⟩)
  have r3 := r2.step (.push (a := ⟨1, [], 8, 8, none⟩) d1 hreg)
  have r4 := r3.step (.block (a := ⟨1, [.push], 8, 8, none⟩) d2)
  have r5 := r4.step (.attack (a := ⟨1, [.push, .block 0], 8, 8, none⟩)
    (Small.danger_write (p := libProg) (t := [.push]) d2 (by decide)) (.cons 8 (.cons 666 .nil)))
  have r6 := r5.step (.check (a := ⟨1, [.push, .block 0], 8, 8, none⟩) (n := 0) d3 hreg (by decide) rfl)
  have r7 := r6.step (.ret (a := ⟨1, [.push, .block 0, .check], 8, 8, none⟩)
    ⟨0, Small.ends (p := libProg) [] (by decide) (by decide) (by decide) (by decide) (by decide +kernel)⟩
    rfl)
  have r8 := r7.step (.block (a := ⟨0, [.block 0], 7, 666, none⟩) e2)
  exact r8.step (.hijack (a := ⟨0, [.block 0, .block 1], 7, 666, none⟩)
    ⟨1, Small.ends (p := allocProg) [allocProg.edges[1]] (by decide) (by decide) (by decide) (by decide)
      (by decide +kernel)⟩
    (Small.mayReturn (p := allocProg) (by decide)) (by decide))

/-- **C92 is false in general.** Library functions are trusted by their names.  A program whose function
calls `malloc` is not protected if `malloc` is a function of an instrumented library which writes
unsafely, although all other conditions hold. -/
theorem C92_refuted : ∃ (obj : Bool → Obj) (wr : Bool → Func → Prop) (who : Func → Bool × Func)
    (binds : List Char → Func → Prop), (∀ i, Treated {} [] (obj i) (wr i)) ∧
    (∀ n g, binds n g → n = "malloc".toList ∧ who g = (true, 0)) ∧ who 0 = (false, 0) ∧
    (obj false).plan 0 = .skipped ∧ ¬ Protected (semAll Follow obj who binds) 0 := by
  refine ⟨allocObj, fun i => Wr (if i then libProg else allocProg).sums, oddWho, allocBinds, ?_, ?_, rfl,
    Small.skipped_of (p := allocProg) (f := 0) (by decide +kernel), fun h => h.unchecked _ _ alloc_attack⟩
  · intro i
    cases i
    · exact Small.treated allocProg_ok (Small.calls_of (by decide +kernel)) (by decide +kernel)
        (Small.tails_none (by decide +kernel)) (Small.allIn rfl rfl rfl)
    · exact Small.treated libProg_ok (Small.calls_of (by decide +kernel)) (by decide +kernel)
        (Small.tails_none (by decide +kernel)) (Small.allIn rfl rfl rfl)
  · rintro n g ⟨rfl, rfl⟩
    exact ⟨rfl, rfl⟩

theorem Small.textOk {p : Small} (h1 : p.other = []) (h2 : p.noret = [])
    (h : ∀ f ∈ p.code.funcs, ∀ e ∈ p.edges, e.src ∈ p.exitsOf f → e.interproc = true →
    e.type ≠ .call → e.type = .ret) : ∀ f ∈ p.code.funcs, TextOk p.code p.bfunc f := by
  refine fun f hf => ⟨fun b hb e he hu => ?_, fun hr => ?_, fun hn => ?_⟩
  · obtain ⟨k1, rfl⟩ := mem_targets.mp he
    exact absurd (h f hf e k1 hb hu.1.1 hu.1.2.1) hu.1.2.2
  · simp [bfunc, h1] at hr
  · simp [bfunc, h2] at hn

/-- Example for `C92_full_partial`: the same program and library are protected in full mode. -/
example : Protected (semAll Follow (fun i : Bool => fullObj (if i then libProg else allocProg).code
    (if i then libProg else allocProg).info (if i then libProg else allocProg).bfunc
    (if i then libProg else allocProg).fullPlan) oddWho allocBinds) 0 := by
  refine C92_full_partial (fl := fullFlags) (skip := []) (fun i => ?_)
    ⟨fun _ _ _ _ h => False.elim h, fun i f _ hs => ?_⟩ 0
  · cases i
    · exact .mk allocProg_ok.full (Small.textOk rfl rfl (by decide +kernel))
    · exact .mk libProg_ok.full (Small.textOk rfl rfl (by decide +kernel))
  · cases i <;> cases (show _ = true from hs)

/-! ## Threads -/

theorem lib_cleanup : ∀ f ∈ libProg.code.funcs, CleanupOnly libProg.code libProg.sums f := by
  intro f _ b _ e he _ hc
  have : ∀ e ∈ libProg.edges, e.type ≠ .catch := by decide +kernel
  exact absurd hc (this e (Small.mem_targets.mp he).1)

/-- Example for `C92_threads_partial`: the program of `C88` and the library, whose functions the program's
unknown calls may lead to. -/
example (frame : Bool → Func → Reg) : TeamProtected
    (semAll Flow (fun i => (if i then libProg else tryProg).obj) oddWho fun _ _ => False)
    (fun f => frame (oddWho f).1 (oddWho f).2)
    (fun f => (if (oddWho f).1 then libProg else tryProg).snip (oddWho f).2) Needs twoRegions := by
  refine C92_threads_partial (fl := {}) (skip := []) (jf := {}) (obj := fun i => (if i then libProg else tryProg).obj)
    (wr := fun i => Wr (if i then libProg else tryProg).sums) (who := oddWho)
    (snip := fun i => (if i then libProg else tryProg).snip) (frame := frame) ?_ ⟨fun _ _ _ h => False.elim h,
    fun _ _ _ _ _ _ _ _ _ _ _ h => False.elim h⟩ twoRegions
  intro i
  cases i
  · exact .light (tryProg.binaryOk rfl _) tryProg_ok.built (fun f hf => ⟨tryProg_calls f hf,
      tryProg_ok.built.covered (tryProg_ok.noRecursion (by decide +kernel)) f hf, tryProg_tails f hf,
      Small.allIn rfl rfl rfl f hf⟩) tryProg_ok.handlers tryProg_cleanup
  · exact .light (libProg.binaryOk rfl _) libProg_ok.built (fun f hf =>
      ⟨Small.calls_of (p := libProg) (by decide +kernel) f hf,
      libProg_ok.built.covered (libProg_ok.noRecursion (by decide +kernel)) f hf,
      Small.tails_none (p := libProg) (by decide +kernel) f hf, Small.allIn rfl rfl rfl f hf⟩)
      libProg_ok.handlers fun f hf _ _ => lib_cleanup f hf

end Verif
