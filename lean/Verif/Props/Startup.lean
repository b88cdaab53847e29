import Verif.Startup
import Verif.Props.FullMode
import Verif.Props.WholeExamples
import Verif.Props.FullModeExamples

/-!
C111: no push and no check is executed before the shadow stack exists.
-/

namespace Verif

/-! ## The resolvers of indirect functions -/

/-- A module is treated in the same way whatever its symbols are: the addresses of the indirect
functions are collected for nothing. -/
theorem C111_ifuncs_ignored (fl : InstrFlags) (skip : List Nat) (co : CodeObj)
    (an : Nat → Option (FuncSummary × List WriteInfo)) (syms syms' : List Sym) (fs : List BFunc)
    (r : List (BFunc × Plan) × Stats) :
    instrumentModule fl skip co an syms fs r = instrumentModule fl skip co an syms' fs r := rfl

/-- The collected addresses are those of the indirect functions, each once. -/
theorem C111_ifuncs (syms : List Sym) (a : Nat) :
    a ∈ getIfuncs syms ↔ ∃ s ∈ syms, s.indirect = true ∧ s.offset = a := by
  simp [getIfuncs, List.mem_eraseDups, and_assoc]

/-- Example: a resolver whose address is known to be one, and which is instrumented nevertheless. -/
example : getIfuncs [⟨4096, true⟩, ⟨8192, false⟩, ⟨4096, true⟩] = [4096] ∧ tinyFunc.base = 4096 ∧
    (instrumentModule {} [] tinyCode (fun _ => some ({}, [])) [⟨4096, true⟩] [tinyFunc] ([], {})).map
      (fun r => r.1.map fun x => (x.1.base, x.2.kind)) = some [(4096, .entryExit)] := by decide

/-! ## Functions without pushes and checks -/

section
variable {m : ProgSem} {L : Loading}

/-- If the early functions belong to a set of functions which execute no pushes and checks and call
only each other, all is well. -/
theorem calm_setUpFirst (calm : Func → Prop) (he : ∀ f, L.Early f → calm f)
    (hq : ∀ f t, calm f → m.trace f t → Ev.push ∉ t ∧ Ev.check ∉ t)
    (hc : ∀ f t g, calm f → t = [] ∨ m.trace f t → m.calls f t g → calm g)
    (ht : ∀ f t g, calm f → t = [] ∨ m.trace f t → m.tails f t g → calm g) : SetUpFirst m L := by
  have key : ∀ p fs, Starting m L p fs →
      (∀ a ∈ fs, calm a.1 ∧ (a.2 = [] ∨ m.trace a.1 a.2)) ∧
      (∀ r, p = .preinit r → ∀ f ∈ r, f ∈ L.preinit) := by
    intro p fs h
    induction h with
    | start => exact ⟨nofun, nofun⟩
    | loader h1 h2 ih =>
      cases h2 with
      | resolve hf =>
        refine ⟨fun a ha => ?_, nofun⟩
        rw [List.mem_singleton.mp ha]
        exact ⟨he _ (.inl hf), .inl rfl⟩
      | relocated =>
        refine ⟨nofun, fun r hr f hf => ?_⟩
        cases hr
        exact hf
      | preinit =>
        refine ⟨fun a ha => ?_, fun r hr f hf => ?_⟩
        · rw [List.mem_singleton.mp ha]
          exact ⟨he _ (.inr (.inl (ih.2 _ rfl _ (List.mem_cons_self ..)))), .inl rfl⟩
        · cases hr
          exact ih.2 _ rfl _ (List.mem_cons_of_mem _ hf)
      | libraries => exact ⟨nofun, nofun⟩
      | constructor hf =>
        refine ⟨fun a ha => ?_, nofun⟩
        rw [List.mem_singleton.mp ha]
        exact ⟨he _ (.inr (.inr (.inl hf))), .inl rfl⟩
      | malloc =>
        refine ⟨fun a ha => ?_, nofun⟩
        obtain ⟨f, hf, rfl⟩ := List.mem_map.mp ha
        exact ⟨he _ (.inr (.inr (.inr (.inl (by simpa using hf))))), .inl rfl⟩
      | syscall =>
        refine ⟨fun a ha => ?_, nofun⟩
        obtain ⟨f, hf, rfl⟩ := List.mem_map.mp ha
        exact ⟨he _ (.inr (.inr (.inr (.inr (by simpa using hf))))), .inl rfl⟩
      | setUp => exact ⟨nofun, nofun⟩
    | event h1 h2 _ ih =>
      refine ⟨fun a ha => ?_, ih.2⟩
      rcases List.mem_cons.mp ha with rfl | ha
      · exact ⟨(ih.1 _ (List.mem_cons_self ..)).1, .inr h2⟩
      · exact ih.1 a (List.mem_cons_of_mem _ ha)
    | call h1 h2 _ ih =>
      refine ⟨fun a ha => ?_, ih.2⟩
      rcases List.mem_cons.mp ha with rfl | ha
      · obtain ⟨k1, k2⟩ := ih.1 _ (List.mem_cons_self ..)
        exact ⟨hc _ _ _ k1 k2 h2, .inl rfl⟩
      · exact ih.1 a ha
    | tail h1 h2 _ ih =>
      refine ⟨fun a ha => ?_, ih.2⟩
      rcases List.mem_cons.mp ha with rfl | ha
      · obtain ⟨k1, k2⟩ := ih.1 _ (List.mem_cons_self ..)
        exact ⟨ht _ _ _ k1 k2 h2, .inl rfl⟩
      · exact ih.1 a (List.mem_cons_of_mem _ ha)
    | leave h1 _ ih => exact ⟨fun a ha => ih.1 a (List.mem_cons_of_mem _ ha), ih.2⟩
  intro p fs h a ha
  obtain ⟨k1, k2⟩ := (key p fs h).1 a ha
  rcases k2 with k2 | k2
  · rw [k2]; exact ⟨nofun, nofun⟩
  · exact hq _ _ k1 k2

/-- The function is called while the loader relocates the program, is at the functions of
`DT_PREINIT_ARRAY`, and so on. -/
theorem early_called {f : Func} (hf : L.Early f) : ∃ p, p ≠ .ready ∧ Starting m L p [(f, [])] := by
  have hpre : ∀ n, Starting m L (.preinit (L.preinit.drop n)) [] := by
    intro n
    induction n with
    | zero => exact .loader .start .relocated
    | succ n ih =>
      by_cases hn : n < L.preinit.length
      · rw [List.drop_eq_getElem_cons hn] at ih
        exact .leave (.loader ih .preinit) nofun
      · rw [List.drop_eq_nil_of_le (by omega)] at ih ⊢
        exact ih
  have hbef : Starting m L .before [] := by
    refine .loader ?_ .libraries
    have := hpre L.preinit.length
    rwa [List.drop_length] at this
  rcases hf with hf | hf | hf | hf | hf
  · exact ⟨.relocating, nofun, .loader .start (.resolve hf)⟩
  · obtain ⟨n, hn, rfl⟩ := List.getElem_of_mem hf
    have := hpre n
    rw [List.drop_eq_getElem_cons hn] at this
    exact ⟨.preinit _, nofun, .loader this .preinit⟩
  · exact ⟨.before, nofun, .loader hbef (.constructor hf)⟩
  · refine ⟨.atMalloc, nofun, ?_⟩
    have := Starting.loader hbef (.malloc (L := L))
    rw [hf] at this
    exact this
  · refine ⟨.atSyscall, nofun, ?_⟩
    have hm : Starting m L .atMalloc [] := by
      have := Starting.loader hbef (.malloc (L := L))
      cases hb : L.bound "malloc" with
      | none => rw [hb] at this; exact this
      | some g => rw [hb] at this; exact .leave this nofun
    have := Starting.loader hm (.syscall (L := L))
    rw [hf] at this
    exact this

/-- An early function which executes a push or check spoils it. -/
theorem early_spoils (hpre : ∀ f t e, m.trace f (t ++ [e]) → t = [] ∨ m.trace f t) {f : Func} (hf : L.Early f)
    {t : List Ev} (ht : m.trace f t) (he : Ev.push ∈ t ∨ Ev.check ∈ t) : ¬ SetUpFirst m L := by
  obtain ⟨p, hp, h0⟩ := early_called (m := m) hf
  have key : ∀ n t, t.length = n → t = [] ∨ m.trace f t → Starting m L p [(f, t)] := by
    intro n
    induction n with
    | zero => intro t hl _; rw [List.length_eq_zero_iff.mp hl]; exact h0
    | succ n ih =>
      intro t hl h
      rcases List.eq_nil_or_concat t with rfl | ⟨t', e, rfl⟩
      · exact h0
      · rw [List.concat_eq_append] at *
        have h' : m.trace f (t' ++ [e]) := by
          rcases h with h | h
          · simp at h
          · exact h
        exact .event (ih t' (by simpa using hl) (hpre _ _ _ h')) h' hp
  intro hs
  have := hs _ _ (key _ t rfl (.inr ht)) _ (List.mem_singleton.mpr rfl)
  rcases he with he | he
  · exact this.1 he
  · exact this.2 he

end

/-- What a function may start with is closed under prefixes. -/
theorem starts_prefix {ok : Edge → Prop} {co : CodeObj} {plan : Func → Plan} (f : Func) (t : List Ev) (e : Ev)
    (h : StartsOn ok co plan f (t ++ [e])) : t = [] ∨ StartsOn ok co plan f t := by
  obtain ⟨h1, t', es, b', h2, h3⟩ := h
  exact .inr ⟨h1, e :: t', es, b', h2, by simpa using h3⟩

/-! ## Light mode -/

section
variable {fl : InstrFlags} {skip : List Nat} {co : CodeObj} {info : StackInfo} {R : Func → RegFacts}
  {T : Sums} {bf : Func → BFunc} {plan : Func → Plan} {L : Loading}

/-- Functions judged safe are left alone. -/
theorem Built.safe_skipped (hb : Built fl skip co info R T bf plan) (hd : fl.disableSfe = false) {f : Func}
    (hf : f ∈ co.funcs) (hs : (T f).safe = true) : plan f = .skipped := by
  rcases hb.cases hf with ⟨_, h⟩ | ⟨ws, an, st, st', han, hplan⟩
  · exact h
  · have hsum : summaryOf fl an (bf f) = some (T f) := by
      unfold summaryOf
      rw [if_pos hb.light, (hb.view f hf).base, han]
      rfl
    have := (((C40_strategy hplan).1 hb.light).1).mpr ⟨hd, .inl ⟨_, hsum, hs⟩⟩
    cases hp : plan f <;> rw [hp] at this <;> first | rfl | cases this

/-- **C111, what holds in light mode.** If the functions which are called before the shadow stack
exists have been judged safe, no push and no check is executed before, whatever they call; given the
conditions of C45.  Missing: other early functions (see `C111_refuted`). -/
theorem C111_light_partial (hb : Built fl skip co info R T bf plan) (hd : fl.disableSfe = false)
    (hcall : ∀ f ∈ co.funcs, NoCallAtCheck fl co (bf f)) (hnr : ∀ f ∈ co.funcs, CallsCovered T f)
    (htail : ∀ f ∈ co.funcs, TailsOk co T f) (hleft : ∀ f ∈ co.funcs, LeftOk skip co T bf f)
    (he : ∀ f, L.Early f → f ∈ co.funcs ∧ (T f).safe = true) :
    SetUpFirst (semOf co info plan (inRegOf fl T) (staysOf bf)) L := by
  have hs := built_sound hb hcall hnr htail hleft
  have hj := analyse_judged hb.code hb.sums
  have hsafe : ∀ f, (T f).safe = true ↔ ¬ Wr T f := fun f => by
    rw [hj.safe]; unfold Wr; cases (T f).writes <;> simp
  refine calm_setUpFirst (fun f => f ∈ co.funcs ∧ (T f).safe = true) he ?_ ?_ ?_
  · rintro f t ⟨hf, h⟩ ⟨_, t', es, b', _, ht⟩
    rw [hb.safe_skipped hd hf h] at ht
    have : ∀ x ∈ t, ∃ b, Ev.block b = x := by
      intro x hx
      have : x ∈ (visits (co.entry f) es).map Ev.block := by
        change _ = (visits (co.entry f) es).map Ev.block at ht
        rw [← ht]; exact List.mem_append_left _ hx
      obtain ⟨b, _, hb⟩ := List.mem_map.mp this
      exact ⟨b, hb⟩
    constructor
    · intro h; obtain ⟨b, hb⟩ := this _ h; cases hb
    · intro h; obtain ⟨b, hb⟩ := this _ h; cases hb
  · rintro f t g ⟨_, h⟩ ht hc
    rw [hsafe] at h ⊢
    exact ⟨hc.1, fun hw => h (hs.calls f t g ht hc hw).1⟩
  · rintro f t g ⟨_, h⟩ _ hc
    rw [hsafe] at h ⊢
    exact ⟨hc.1, fun hw => h (hs.tails f t g hc hw)⟩

/-- **C111, what holds for other functions.** No push and no check is executed before the shadow stack
exists, if functions without any are called then, which call, jump to and are left for only each other:
for instance if they are all on the skip list. -/
theorem C111_skipped_partial (Q : Func → Prop) (he : ∀ f, L.Early f → Q f)
    (hq : ∀ f, Q f → f ∈ co.funcs → plan f = .skipped)
    (hc : ∀ f, Q f → f ∈ co.funcs → ∀ b ∈ co.blocks f, ∀ e ∈ co.targets b, ¬ UnknownCall co e ∧
      ∀ g ∈ co.funcs, DirectCall co e g → Q g)
    (ht : ∀ f, Q f → f ∈ co.funcs → ∀ b ∈ co.exitBlocks f, ∀ e ∈ co.targets b, ¬ UnknownJump co e ∧
      ∀ g ∈ co.funcs, JumpTo co e g → Q g)
    (hok : ∀ f ∈ co.funcs, FuncOk co f) (inReg stays : Func → Prop) :
    SetUpFirst (semOf co info plan inReg stays) L := by
  have hblk : ∀ f t b, Q f → AtEnd co plan f t b → b ∈ co.blocks f := by
    rintro f t b hQ ⟨⟨hf, t', es, b', hw, h⟩, h2, _⟩
    rw [hq f hQ hf] at h
    change _ = (visits (co.entry f) es).map Ev.block at h
    have hin := walk_blocks (hok f hf).wf.closed hw (hok f hf).wf.entry
    have : Ev.block b ∈ (visits (co.entry f) es).map Ev.block := by
      rw [← h]
      obtain ⟨t'', rfl | rfl⟩ := h2 <;> simp
    obtain ⟨x, hx, hx'⟩ := List.mem_map.mp this
    cases hx'
    exact hin _ hx
  refine calm_setUpFirst Q he ?_ ?_ ?_
  · rintro f t hQ ⟨hf, t', es, b', _, h⟩
    rw [hq f hQ hf] at h
    change _ = (visits (co.entry f) es).map Ev.block at h
    have : ∀ x ∈ t, ∃ b, Ev.block b = x := by
      intro x hx
      have : x ∈ (visits (co.entry f) es).map Ev.block := by
        rw [← h]; exact List.mem_append_left _ hx
      obtain ⟨b, _, hb⟩ := List.mem_map.mp this
      exact ⟨b, hb⟩
    constructor
    · intro h; obtain ⟨b, hb⟩ := this _ h; cases hb
    · intro h; obtain ⟨b, hb⟩ := this _ h; cases hb
  · rintro f t g hQ _ ⟨hg, ⟨b, hA, e, hem, h⟩ | ⟨b, hE, e, hem, h⟩⟩
    · obtain ⟨k1, k2⟩ := hc f hQ hA.1.1 b (hblk f t b hQ hA) e hem
      rcases h with h | h
      · exact k2 g hg h
      · exact absurd h k1
    · exact absurd h (ht f hQ hE.1 b hE.2.1 e hem).1
  · rintro f t g hQ _ ⟨hg, b, hE, e, hem, h⟩
    exact (ht f hQ hE.1 b hE.2.1 e hem).2 g hg h

/-- **C111 fails in full mode** for every program with a function in `.text` that is called before the
shadow stack exists and may return. -/
theorem C111_full_refuted (hb : BuiltFull fl skip co bf plan) {f : Func} (hf : f ∈ co.funcs)
    (he : L.Early f) (h1 : (bf f).noReturn = false) (h2 : (bf f).region = ".text")
    (inReg stays : Func → Prop) : ¬ SetUpFirst (semOf co info plan inReg stays) L := by
  refine early_spoils (f := f) (t := [.push]) starts_prefix he ?_ (.inl (by simp))
  have ht : ∃ t', [Ev.push] ++ t' = (plan f).trace (co.entry f) [] := by
    rw [hb.plan_eq hf h1 h2]
    change ∃ t', _ = pointTrace _ _ _ _
    unfold pointTrace
    rw [show [co.entry f].count (co.entry f) = 1 by simp]
    exact ⟨_, rfl⟩
  obtain ⟨t', ht⟩ := ht
  exact ⟨hf, t', [], _, .nil _, ht⟩

end

/-! ## Examples -/

/-- `f0` calls `f1`, which writes to an unknown address; `f2` calls `f3`, neither of which writes. -/
def bootProg : Small where
  blocks := [[0, 1], [2], [3, 4], [5]]
  exits := [[1], [2], [4], [5]]
  edges :=
    [{ id := 0, src := 0, trg := 2, type := .call, interproc := true },
     { id := 1, src := 0, trg := 1, type := .callFt },
     retEdge 2 1, retEdge 3 2,
     { id := 4, src := 3, trg := 5, type := .call, interproc := true },
     { id := 5, src := 3, trg := 4, type := .callFt },
     retEdge 6 4, retEdge 7 5]
  danger := [2]

theorem bootProg_ok : bootProg.Ok where
  sums := by decide +kernel
  plans := by decide +kernel
  addr := by decide +kernel
  oneCall := by decide +kernel
  entry := by decide +kernel
  closed := by decide +kernel
  ret := by decide +kernel
  exits := by decide +kernel
  handler := by decide +kernel
  nodup := by decide +kernel
  after := by decide +kernel
  resolved := by decide +kernel
  exitIn := by decide +kernel
  nodupEdges := by decide +kernel
  lone := by decide +kernel
  callOut := by decide +kernel

theorem bootProg_calls : ∀ f ∈ bootProg.code.funcs, NoCallAtCheck {} bootProg.code (bootProg.bfunc f) := by
  have h : ∀ f ∈ bootProg.code.funcs, ∀ r ∈ checkFastPath false (bootProg.bfunc f).cfg,
      ∀ e ∈ bootProg.edges, e.src ∈ r.2 → e.type ≠ .call := by decide +kernel
  exact fun f hf => Small.noCallAtCheck (h f hf)

theorem bootProg_tails : ∀ f ∈ bootProg.code.funcs, TailsOk bootProg.code bootProg.sums f := by
  have h : ∀ f ∈ bootProg.code.funcs, ∀ e ∈ bootProg.edges, e.src ∈ bootProg.exitsOf f →
      e.interproc = true → e.type ≠ .call → e.type ≠ .ret →
      e.sink = false ∧ ∃ g ∈ bootProg.code.funcs, calleeAt bootProg.code e.trg = some g ∧
        ((bootProg.sums g).writes = true → (bootProg.sums f).writes = true) := by decide +kernel
  exact fun f hf => Small.tailsOk (h f hf)

/-- Example for `C111_light_partial`: `f2` resolves an indirect function. -/
theorem C111_example : SetUpFirst bootProg.sem { resolvers := [2], preinit := [3] } := by
  refine C111_light_partial bootProg_ok.built rfl bootProg_calls
    (bootProg_ok.built.covered (bootProg_ok.noRecursion (by decide +kernel))) bootProg_tails
    (Small.allIn rfl rfl rfl) fun f hf => ?_
  rcases hf with hf | hf | hf | hf | hf
  · rw [List.mem_singleton.mp hf]; decide +kernel
  · rw [List.mem_singleton.mp hf]; decide +kernel
  · cases hf
  · cases hf
  · cases hf

/-- In this example the resolver calls the other function before the shadow stack exists. -/
example : Starting bootProg.sem { resolvers := [2], preinit := [3] } .relocating
    [(3, []), (2, [.block 3])] := by
  have hs : bootProg.plan 2 = .skipped := Small.skipped_of (by decide +kernel)
  have e1 : bootProg.sem.trace 2 ([] ++ [.block 3]) :=
    Small.starts (b' := 3) [] (by decide) (by decide) (by decide +kernel)
  exact .call (.event (.loader .start (.resolve (by simp))) e1 nofun)
    (Small.calls_skipped (t := []) bootProg.edges[4] hs e1 (by decide) (by decide)
      (Small.direct (by decide) (by decide) (by decide +kernel))) nofun

/-- The push of `f1` comes first. -/
theorem bootProg_push : bootProg.sem.trace 1 [.push] :=
  Small.starts (b' := 2) [] (by decide) (by decide) (by decide +kernel)

/-- **C111 is false**: with the default options the conditions of C45 hold, and yet a push is executed
before the shadow stack exists - because it stands in the resolver of an indirect function; in a
function of `DT_PREINIT_ARRAY`; or because the program has its own `malloc`, which the constructor that
sets up the shadow stack calls. -/
theorem C111_refuted : ∃ co info R T bf plan,
    Built {} [] co info R T bf plan ∧ (∀ f ∈ co.funcs, NoCallAtCheck {} co (bf f)) ∧
    (∀ f ∈ co.funcs, CallsCovered T f) ∧ (∀ f ∈ co.funcs, TailsOk co T f) ∧
    (∀ f ∈ co.funcs, LeftOk [] co T bf f) ∧ ∃ f ∈ co.funcs, ∀ L : Loading,
      f ∈ L.resolvers ∨ f ∈ L.preinit ∨ L.bound "malloc" = some f →
      ¬ SetUpFirst (semOf co info plan (inRegOf {} T) (staysOf bf)) L :=
  ⟨_, _, _, _, _, _, bootProg_ok.built, bootProg_calls,
    bootProg_ok.built.covered (bootProg_ok.noRecursion (by decide +kernel)), bootProg_tails,
    Small.allIn rfl rfl rfl, 1, by decide, fun L h =>
      early_spoils (f := 1) (t := [.push]) starts_prefix
        (by rcases h with h | h | h
            · exact .inl h
            · exact .inr (.inl h)
            · exact .inr (.inr (.inr (.inl h)))) bootProg_push (.inl (by simp))⟩

/-- Example for full mode: the first function is a resolver. -/
example : ¬ SetUpFirst (semOf bootProg.code bootProg.info bootProg.fullPlan (fun _ => False) (fun _ => False))
    { resolvers := [0] } :=
  C111_full_refuted bootProg_ok.full (f := 0) (by decide) (.inl (by simp)) rfl rfl _ _

/-! ## On the machine -/

/-- **Why it matters.** A push stores into the word at the gs base.  Before the shadow stack exists the
base is 0, and nothing can be stored at address 0. -/
theorem C111_push_stores {code : Code} {d : Int} {n : Nat} {free : Reg → Prop} (hp : IsPush code d n free)
    {s : State} (hsep : PushSep (s.retAddr d) n s) :
    ∃ s', Exits code s s' ∧ ∃ x, InRange x s.gs 8 ∧ s'.mem x ≠ s.mem x := by
  obtain ⟨s', h1, h2⟩ := hp.run hsep
  refine ⟨s', h1, Classical.byContradiction fun hn => ?_⟩
  have hall : ∀ x, InRange x s.gs 8 → s'.mem x = s.mem x := fun x hx =>
    Classical.byContradiction fun h => hn ⟨x, hx, h⟩
  have e : s'.mem.read64 s.gs = s.mem.read64 s.gs := read64_eq _ _ _ hall
  have hgs : s'.gs = s.gs := h2.same.gs
  have hp := h2.pointer
  unfold State.shadow at hp
  rw [hgs, e] at hp
  bv_omega

/-- Example: the state of a program before the constructor, whose memory at 0 is readable. -/
example : ∃ code free s', IsPush code 0 16 free ∧
    Exits code ⟨fun r => if r = .rsp then 0x7000 else 0, 0, 0, fun _ => 1⟩ s' ∧
    ∃ x, InRange x (0 : W) 8 ∧ s'.mem x ≠ 1 := by
  obtain ⟨code, free, hp⟩ := default_isPush
  have hs : PushSep (State.retAddr ⟨fun r => if r = .rsp then 0x7000 else 0, 0, 0, fun _ => 1⟩ 0) 16
      ⟨fun r => if r = .rsp then 0x7000 else 0, 0, 0, fun _ => 1⟩ := by
    have e : State.shadow ⟨fun r => if r = .rsp then 0x7000 else 0, 0, 0, fun _ => 1⟩ = 0x0101010101010101 := by
      decide
    have e' : State.retAddr ⟨fun r => if r = .rsp then 0x7000 else 0, 0, 0, fun _ => 1⟩ 0 = 0x7000 := by decide
    constructor
    · rw [e]; exact sep_of_le (by decide) (by decide) (by decide)
    · rw [e']; exact sep_of_le (by decide) (by decide) (by decide)
    · rw [e]; exact sep_of_le (by decide) (by decide) (by decide)
    · exact sep_of_le (by decide) (by decide) (by decide)
  obtain ⟨s', h1, x, h2, h3⟩ := C111_push_stores hp hs
  exact ⟨code, free, s', hp, h1, x, h2, h3⟩

end Verif
