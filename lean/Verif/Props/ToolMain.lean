import Verif.ToolMain
import Verif.Props.ToolRun
import Verif.Props.Report
import Verif.Props.SkipListExact

/-!
# C95: what a run of the tool means that ends with status 0
-/

namespace Verif

variable {h : Host} {fl : ToolFlags} {args : List String} {l : List (BFunc × Plan)} {st : Stats}
  {w : Option String}

theorem toolMain_zero (e : toolMain h fl args = .zero l st w) :
    validShadowStack fl.instr.shadowStack = true ∧ ∃ binary rest objs, args = binary :: rest ∧
      h.opens binary = some objs ∧ instrument fl.instr (skipsOf h fl.skipList) objs = some (l, st) ∧
      w = if h.canWrite (outputName fl.output binary) then some (outputName fl.output binary) else none := by
  unfold toolMain at e
  split at e
  · cases e
  rename_i hv
  split at e
  · cases e
  split at e
  · cases e
  rename_i objs ho
  split at e
  · cases e
  rename_i hi
  cases e
  exact ⟨by simpa using hv, _, _, _, rfl, ho, hi, rfl⟩

/-- **C95, flags.** A run which does not stop at once is in one of the two documented modes. -/
theorem C95_mode (e : toolMain h fl args ≠ .refused) :
    fl.instr.shadowStack = "light" ∨ fl.instr.shadowStack = "full" := by
  unfold toolMain at e
  split at e
  · exact absurd rfl e
  · rename_i hv
    simpa [validShadowStack, Decidable.or_iff_not_imp_left] using hv

/-- **C95, what is treated.** The tool treats the functions in scope of the objects of the first argument
and no others; arguments behind the first are ignored. -/
theorem C95_treated (e : toolMain h fl args = .zero l st w) : ∃ binary rest objs, args = binary :: rest ∧
    h.opens binary = some objs ∧ ∀ f, (∃ p, (f, p) ∈ l) ↔ InScope fl.instr objs f := by
  obtain ⟨_, b, r, objs, h1, h2, h3, _⟩ := toolMain_zero e
  exact ⟨b, r, objs, h1, h2, C42_scope_partial h3⟩

theorem C95_rest (binary : String) (rest rest' : List String) :
    toolMain h fl (binary :: rest) = toolMain h fl (binary :: rest') := rfl

/-- **C95, the output.** The input is overwritten only if it is named as output, and what is written has
the name asked for. -/
theorem C95_written (e : toolMain h fl args = .zero l st (some n)) : ∃ binary rest, args = binary :: rest ∧
    (fl.output ≠ "" → n = fl.output) ∧ (fl.output = "" → n = binary ++ "_cfi") ∧
    (n = binary → fl.output = binary) := by
  obtain ⟨_, b, r, objs, h1, _, _, h4⟩ := toolMain_zero e
  split at h4
  · cases h4
    refine ⟨b, r, h1, fun ho => ?_, fun ho => ?_, fun hn => ((C91_output _ _).1 hn).1⟩
    · simp [outputName, ho]
    · simp [outputName, ho]
  · cases h4

/-- **C95, protection.** After a run which ends with status 0, each code object of the binary which the
tool considers is protected, under the conditions of C90. -/
theorem C95_protected_partial {binary : String} {rest : List String} {os : List BObject} {o : BObject}
    {bf : Func → BFunc} {info : StackInfo} {R : Func → RegFacts} {T : Sums}
    (e : toolMain h fl (binary :: rest) = .zero l st w) (hob : h.opens binary = some os) (hm : o ∈ os)
    (hc : Considered fl.instr o) (hs : Shows o bf) (ha : fl.instr.asserts = true) (hok : CodeOk o.code)
    (hf : ∀ f ∈ o.code.funcs, FuncOk o.code f) (hv : ∀ f ∈ o.code.funcs, View o.code info (bf f) f)
    (hT : analyse o.code info R = some T) {ws : Func → List WriteInfo}
    (han : o.analyses = analysisTable o.code T ws)
    (hlight : fl.instr.shadowStack = "light" → ∀ f ∈ o.code.funcs, NoCallAtCheck fl.instr o.code (bf f) ∧
      CallsCovered T f ∧ TailsOk o.code T f ∧ LeftOk (skipsOf h fl.skipList) o.code T bf f)
    (hfull : fl.instr.shadowStack = "full" → ∀ f ∈ o.code.funcs, FullOk o.code info bf f) :
    ∃ l', DoneTo fl.instr (skipsOf h fl.skipList) os l o l' ∧
      ∀ f, Protected (semOf o.code info (planOf l') (inRegIn fl.instr T) (staysOf bf)) f := by
  obtain ⟨_, b, r, objs, h1, h2, h3, _⟩ := toolMain_zero e
  cases h1
  rw [hob] at h2
  cases h2
  obtain ⟨l', hl'⟩ := C90_done h3 hm
  refine ⟨l', hl', C90_protected_partial hl' hc hs ha hok hf hv hT han hlight fun hl => hfull ?_⟩
  exact (C95_mode (h := h) (args := binary :: rest) (by rw [e]; nofun)).resolve_left hl

/-! ## Values which are not documented -/

theorem pushes_threat (fi : InstrFlags) (a b : String) (f : BFunc) (s : Option FuncSummary) (ps : List Pt)
    (st : Stats) : planPushes { fi with threatModel := a } f s ps st =
      planPushes { fi with threatModel := b } f s ps st := by
  induction ps generalizing st with
  | nil => rfl
  | cons p ps ih => simp only [planPushes, moveInstrumentation, ih]

theorem checks_threat (fi : InstrFlags) (a b : String) (f : BFunc) (s : Option FuncSummary) (ps : List Pt)
    (st : Stats) : planChecks { fi with threatModel := a } f s ps st =
      planChecks { fi with threatModel := b } f s ps st := by
  induction ps generalizing st with
  | nil => rfl
  | cons p ps ih => simp only [planChecks, moveInstrumentation, ih]

theorem lowering_threat (fi : InstrFlags) (a b : String) (co : CodeObj) (f : Func) (s : Option FuncSummary) :
    doLowering { fi with threatModel := a } co f s = doLowering { fi with threatModel := b } co f s := rfl

theorem light_threat (fi : InstrFlags) (a b : String) (co : CodeObj) (f : BFunc) (s : Option FuncSummary)
    (st : Stats) : instrumentLight { fi with threatModel := a } co f s st =
      instrumentLight { fi with threatModel := b } co f s st := by
  unfold instrumentLight
  simp only [lowering_threat fi a b, pushes_threat fi a b, checks_threat fi a b, useRegFrame]
  rfl

theorem function_threat (fi : InstrFlags) (a b : String) (skip : List Nat) (co : CodeObj)
    (an : Nat → Option (FuncSummary × List WriteInfo)) (f : BFunc) (st : Stats) :
    instrumentFunction { fi with threatModel := a } skip co an f st =
      instrumentFunction { fi with threatModel := b } skip co an f st := by
  unfold instrumentFunction
  simp only [light_threat fi a b, skippable]
  rfl

theorem object_threat (fi : InstrFlags) {a b : String} (ha : a ≠ "trust_system") (hb : b ≠ "trust_system")
    (skip : List Nat) (o : BObject) (r : List (BFunc × Plan) × Stats) :
    instrumentObject { fi with threatModel := a } skip o r =
      instrumentObject { fi with threatModel := b } skip o r := by
  unfold instrumentObject
  simp only [ha, hb, false_and, if_false]
  have : moduleStep { fi with threatModel := a } = moduleStep { fi with threatModel := b } := by
    funext skip co an r f
    unfold moduleStep
    rw [function_threat fi a b]
  rw [this]

/-- **C95, threat model.** Every value but the default means the same as `trust_none`. -/
theorem C95_threat_model {a : String} (ha : a ≠ "trust_system") :
    toolMain h { fl with instr := { fl.instr with threatModel := a } } args =
      toolMain h { fl with instr := { fl.instr with threatModel := "trust_none" } } args := by
  have hi : ∀ skip objs, instrument { fl.instr with threatModel := a } skip objs =
      instrument { fl.instr with threatModel := "trust_none" } skip objs := by
    intro skip objs
    unfold instrument
    simp only [object_threat fl.instr ha (show ("trust_none" : String) ≠ "trust_system" by decide +kernel)]
  unfold toolMain
  simp only [hi]

/-- **C95, dry runs.** Every value which is not documented emits the same code as no dry run. -/
theorem C95_dry_run {jf : JitFlags} (he : jf.dryRun ≠ "empty") (hs : jf.dryRun ≠ "only-save") :
    jitStackPush jf = jitStackPush { jf with dryRun := "" } ∧
    jitStackPop jf = jitStackPop { jf with dryRun := "" } ∧
    jitRegisterPush jf = jitRegisterPush { jf with dryRun := "" } ∧
    jitRegisterPop jf = jitRegisterPop { jf with dryRun := "" } := by
  have e1 : ("" : String) ≠ "empty" := by decide +kernel
  have e2 : ("" : String) ≠ "only-save" := by decide +kernel
  have hs' : ∀ d ex ht, saveTemps jf d ex ht = saveTemps { jf with dryRun := "" } d ex ht := fun _ _ _ => rfl
  have hb : body jf = body { jf with dryRun := "" } := by
    funext p f t
    simp only [body, hs, e2, ne_eq, not_false_eq_true, if_true]
  refine ⟨?_, ?_, ?_, ?_⟩
  · funext sm uo ht uf b t
    simp only [jitStackPush, stackPushWith, pushTemps, hs', hb, he, e1, if_false]
  · funext sm uo b t
    simp only [jitStackPop, stackPopWith, popTemps, hs', hb, he, e1, if_false]
  · funext sm ht
    simp only [jitRegisterPush, he, e1, hs, e2, if_false, ne_eq, not_false_eq_true, if_true]
  · funext sm
    simp only [jitRegisterPop, hs', he, e1, hs, e2, if_false, ne_eq, not_false_eq_true, if_true]

/-! ## What is wrong -/

/-- **C95 is false**: without an argument, and with one that is not a binary, the behaviour is
undefined. -/
theorem C95_refuted_argument (h : Host) (fl : ToolFlags) (hv : validShadowStack fl.instr.shadowStack = true) :
    toolMain h fl [] = .broken ∧ ∀ b rest, h.opens b = none → toolMain h fl (b :: rest) = .broken := by
  unfold toolMain
  simp only [hv]
  refine ⟨rfl, fun b rest hb => ?_⟩
  simp [hb]

/-- **C95 is false**: status 0 does not mean that anything was written. -/
theorem C95_refuted_written : ∃ h fl args l st, toolMain h fl args = .zero l st none ∧ l ≠ [] :=
  ⟨{ opens := fun _ => some [tinyObj "/bin/prog"], file := fun _ => none, canWrite := fun _ => false }, {}, ["/bin/prog"],
    _, _, rfl, by decide⟩

/-- **C95 is false**: a skip list which cannot be read is as good as none, and the run ends with status
0. -/
theorem C95_refuted_skip_list {name : String} (hn : h.file name = none) :
    toolMain h { fl with skipList := name } args = toolMain h { fl with skipList := "" } args := by
  have : skipsOf h name = skipsOf h "" := by
    unfold skipsOf
    split
    · rfl
    · rw [hn, if_pos rfl, Option.getD_none, readSkips]
      rfl
  unfold toolMain
  simp only [this]

/-- **C95 is false**: a run with status 0 may leave the whole program as it was. -/
theorem C95_refuted_nothing : ∃ h args st n, toolMain h {} args = .zero [] st (some n) ∧
    ∃ o ∈ (h.opens "/home/me.software/prog").getD [], o.modules.flatten ≠ [] ∧ args = ["/home/me.software/prog"] := by
  refine ⟨{ opens := fun p => some [tinyObj p], file := fun _ => none, canWrite := fun _ => true },
    ["/home/me.software/prog"], _, _, rfl, _, List.mem_singleton.2 rfl, ?_, rfl⟩
  decide

/-! ## Example -/

/-- A machine with one program, which is linked with two libraries. -/
def sampleHost : Host where
  opens p := if p = "/bin/prog" then some ([goodProg.object "/lib/libc.so.6" 1] ++ goodProg.object "/bin/prog" 2 ::
    [recProg.object "/lib/libx.so" 0]) else none
  file _ := none
  canWrite n := n = "/bin/prog_cfi"

theorem sampleHost_run : ∃ l st, toolMain sampleHost {} ["/bin/prog"] = .zero l st (some "/bin/prog_cfi") := by
  obtain ⟨⟨l, st⟩, hr⟩ := Option.isSome_iff_exists.mp sampleRun_light
  refine ⟨l, st, ?_⟩
  have ho : sampleHost.opens "/bin/prog" = some ([goodProg.object "/lib/libc.so.6" 1] ++
    goodProg.object "/bin/prog" 2 :: [recProg.object "/lib/libx.so" 0]) := by simp [sampleHost]
  have hi : instrument {} (skipsOf sampleHost "") ([goodProg.object "/lib/libc.so.6" 1] ++
    goodProg.object "/bin/prog" 2 :: [recProg.object "/lib/libx.so" 0]) = some (l, st) := hr
  have hw : sampleHost.canWrite (outputName "" "/bin/prog") = true := by decide +kernel
  have hn : outputName "" "/bin/prog" = "/bin/prog_cfi" := by decide +kernel
  unfold toolMain
  rw [if_neg (by decide +kernel)]
  simp only [ho, hi, hw, if_true]
  rw [hn]

/-- Example for `C95_protected_partial`. -/
example : ∃ l st w, toolMain sampleHost {} ["/bin/prog"] = .zero l st w ∧ 
    ∃ l', DoneTo {} [] sampleObjects l (goodProg.object "/bin/prog" 2) l' ∧
      ∀ f, Protected (semOf goodProg.code goodProg.info (planOf l') (inRegIn {} goodProg.sums)
        (staysOf goodProg.bfunc)) f := by
  obtain ⟨l, st, h⟩ := sampleHost_run
  refine ⟨l, st, _, h, ?_⟩
  have ho : sampleHost.opens "/bin/prog" = some sampleObjects := by simp [sampleHost, sampleObjects]
  exact C95_protected_partial h ho (List.mem_cons_of_mem _ List.mem_cons_self) (sample_considered _) (goodProg.shows _ _) rfl goodProg_ok.code
    goodProg_ok.func goodProg_ok.view goodProg_ok.analysed rfl
    (fun _ f hf => ⟨goodProg_calls f hf, goodProg_ok.built.covered (goodProg_ok.noRecursion (by decide +kernel)) f hf,
      goodProg_tails f hf, Small.allIn (p := goodProg) rfl rfl rfl f hf⟩)
    fun hl => absurd hl (by decide +kernel)

end Verif
