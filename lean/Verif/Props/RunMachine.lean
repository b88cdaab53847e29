import Verif.Props.Objects
import Verif.Props.ToolMain
import Verif.Props.SignalProgram

/-!
# C101: what a run of the tool writes is protected on the machine
-/

namespace Verif

/-! ## Signals, whatever the program consists of -/

/-- Where a signal may start which handlers: those in `wr`, which may write unsafely, only between push and
check of functions in `wr` themselves; none in functions which keep their return address in a register. -/
def HandlersIn (m : ProgSem) (wr : Func → Prop) (H : Func → List Ev → Func → Prop) : Prop :=
  ∀ f t h, H f t h → ¬ m.inReg f ∧ (wr h → wr f ∧ (¬ m.stays f → .push ∈ t ∧ .check ∉ t))

/-- The steps of a thread with exceptions and signals. -/
def signalled (m : ProgSem) (frame : Func → Reg) (snip : Func → Ev → Code → State → W → Prop)
    (own : W → Prop) (depth : Nat) (g : W) : XProc → XProc → Prop :=
  Disturbed (Unwinding (EStep m frame snip g) g) m snip (Handled BeforePointer own g depth) g

section
variable {m : ProgSem} {writes : Func → Prop} {frame : Func → Reg} {snip : Func → Ev → Code → State → W → Prop}

/-- The conditions suffice for programs with handlers. -/
theorem Sound.signals (hs : Sound m writes) {H : Func → List Ev → Func → Prop} (hH : HandlersIn m writes H)
    (hfit : ∀ f t ev c s R, m.trace f (t ++ [ev]) → snip f ev c s R →
      SnipFits (m.inReg f) (frame f) c s R ev) {own : W → Prop} (hown : ∀ v, own v → ¬ GuardLike v)
    (depth : Nat) (g : W) (f : Func) :
    SProtected (m.handling H) frame (signalled (m.handling H) frame snip own depth g) own g f := by
  refine (hs.handling hH).disturbed (fun _ _ h => ?_) hfit (handled_calm ⟨fun _ h => h, hown⟩ g depth) hown f
  cases h with
  | step h => exact .step (EStep.refines (m := m.handling H) hfit h)
  | unwind h1 h2 h3 => exact .unwind h1 h2 h3

end

/-- **C92 with signals.** Missing: as in `C92_threads_partial` and `C100_signals_partial`. -/
theorem C92_signals_partial {fl : InstrFlags} {skip : List Nat} {jf : JitFlags} {ι : Type} {obj : ι → Obj}
    {wr : ι → Func → Prop} {who : Func → ι × Func} {binds : List Char → Func → Prop}
    {frame : ι → Func → Reg} {snip : ι → Func → Ev → Code → State → W → Prop}
    (h : ∀ i, TreatedMachine fl skip jf (obj i) (wr i) (frame i) (snip i))
    (hb : BindOk (fun i => (obj i).code) (fun i => (obj i).stays) wr who binds)
    {H : Func → List Ev → Func → Prop}
    (hH : HandlersIn (semAll Flow obj who binds) (fun f => wr (who f).1 (who f).2) H)
    {own : W → Prop} (hown : ∀ v, own v → ¬ GuardLike v) (depth : Nat) (g : W) (f : Func) :
    SProtected ((semAll Flow obj who binds).handling H) (fun f => frame (who f).1 (who f).2)
      (signalled ((semAll Flow obj who binds).handling H) (fun f => frame (who f).1 (who f).2)
        (fun f => snip (who f).1 (who f).2) own depth g) own g f :=
  (all_sound (fun i => (h i).sound) hb).signals hH (fun f _ _ _ _ _ ht hs => (h (who f).1).fits ht hs) hown
    depth g f

/-! ## A run of the tool -/

/-- What a code object's instructions are, and what the liveness analysis and the choice of frame registers
give for them. -/
structure MachineData where
  binary : Binary
  dead : Func → DeadNames
  frame : Func → Reg

/-- The code object meets the conditions of `C90_protected_partial`, those of `C80_planned_partial` on its
instructions and those of `C86_protected_partial` on its handlers. -/
structure SuitableMachine (fl : InstrFlags) (skip : List Nat) (jf : JitFlags) (o : BObject) (d : ObjData)
    (x : MachineData) : Prop extends Suitable fl skip o d where
  handlers : ∀ f ∈ o.code.funcs, HandlersOk o.code (d.bfunc f) f
  lightCode : fl.shadowStack = "light" →
    BinaryOk x.binary fl jf o.code d.info d.regs d.bfunc x.dead x.frame ∧
    ∀ f ∈ o.code.funcs, ∀ L, doLowering fl o.code f (some (d.sums f)) = some (some L) →
      CleanupOnly o.code d.sums f
  fullCode : fl.shadowStack ≠ "light" → FullBinaryOk x.binary jf o.code

/-- The code which the tool emits for the pushes and checks of the object's functions. -/
def snipOf (fl : InstrFlags) (jf : JitFlags) (o : BObject) (d : ObjData) (x : MachineData)
    (l : List (BFunc × Plan)) : Func → Ev → Code → State → W → Prop :=
  if fl.shadowStack = "light" then
    x.binary.Snippet jf (fun f => (d.sums f).jit (x.dead f)) o.code (planOf l)
  else x.binary.FullSnippet jf o.code (planOf l)

theorem run_treatedMachine {fl : InstrFlags} {skip : List Nat} {jf : JitFlags} {os : List BObject}
    {res l : List (BFunc × Plan)} {o : BObject} {d : ObjData} {x : MachineData}
    (h : DoneTo fl skip os res o l) (ha : fl.asserts = true) (hc : Considered fl o)
    (hd : SuitableMachine fl skip jf o d x) :
    TreatedMachine fl skip jf (objOf fl o d l) (unsafeIn fl o d) x.frame (snipOf fl jf o d x l) := by
  by_cases hl : fl.shadowStack = "light"
  · rw [(objOf_light hl).1, (objOf_light (l := l) hl).2, snipOf, if_pos hl]
    exact .light (hd.lightCode hl).1
      (C90_light h hc hd.shown hl ha hd.code hd.func hd.view hd.analysed hd.table) (hd.light hl) hd.handlers
      (hd.lightCode hl).2
  · rw [(objOf_full hl).1, (objOf_full (l := l) hl).2, snipOf, if_neg hl]
    exact .full (hd.fullCode hl) (C90_full h hc hd.shown hl hd.func hd.view) (hd.full hl) hd.handlers

/-- The code objects of the list which the tool considers. -/
abbrev Part (fl : InstrFlags) (os : List BObject) : Type := {o : BObject // o ∈ os ∧ Considered fl o}

section
variable {fl : InstrFlags} {skip : List Nat} {jf : JitFlags} {os : List BObject}
  {res : List (BFunc × Plan)} {st : Stats} {d : BObject → ObjData} {x : BObject → MachineData}
  {who : Func → Part fl os × Func} {binds : List Char → Func → Prop}
  {l : BObject → List (BFunc × Plan)}

/-- The program consisting of all code objects which the tool considers, if it treats them as `l` says. -/
def toolSem (fl : InstrFlags) (os : List BObject) (d : BObject → ObjData) (l : BObject → List (BFunc × Plan))
    (who : Func → Part fl os × Func) (binds : List Char → Func → Prop) : ProgSem :=
  semAll Flow (fun o : Part fl os => objOf fl o.1 (d o.1) (l o.1)) who binds

/-- Its frame registers. -/
def toolFrame (x : BObject → MachineData) (who : Func → Part fl os × Func) (f : Func) : Reg :=
  (x (who f).1.1).frame (who f).2

/-- The code emitted for its pushes and checks. -/
def toolSnip (jf : JitFlags) (d : BObject → ObjData) (x : BObject → MachineData)
    (l : BObject → List (BFunc × Plan)) (who : Func → Part fl os × Func) (f : Func) :
    Ev → Code → State → W → Prop :=
  snipOf fl jf (who f).1.1 (d (who f).1.1) (x (who f).1.1) (l (who f).1.1) (who f).2

/-- The functions which may write unsafely. -/
def toolUnsafe (d : BObject → ObjData) (who : Func → Part fl os × Func) (f : Func) : Prop :=
  unsafeIn fl (who f).1.1 (d (who f).1.1) (who f).2

/-- Names of trusted functions are bound to functions which do not write unsafely (`BindOk`). -/
def ToolBinds (d : BObject → ObjData) (who : Func → Part fl os × Func) (binds : List Char → Func → Prop) : Prop :=
  BindOk (fun o : Part fl os => o.1.code) (fun o => staysOf (d o.1).bfunc) (fun o => unsafeIn fl o.1 (d o.1))
    who binds

/-- **C101, threads.** After a run of the tool, the program consisting of all code objects which it considers
is protected when it is executed with the code that the tool emits, with any number of threads and with
exceptions.  Missing: as in `C92_threads_partial`. -/
theorem C101_threads_partial (hl : ∀ o ∈ os, DoneTo fl skip os res o (l o)) (ha : fl.asserts = true)
    (hs : ∀ o ∈ os, Considered fl o → SuitableMachine fl skip jf o (d o) (x o))
    (hb : ToolBinds d who binds) (g : Nat → W) :
    TeamProtected (toolSem fl os d l who binds) (toolFrame x who) (toolSnip jf d x l who) Needs g :=
  C92_threads_partial (ι := Part fl os) (obj := fun o => objOf fl o.1 (d o.1) (l o.1))
    (wr := fun o => unsafeIn fl o.1 (d o.1)) (frame := fun o => (x o.1).frame)
    (snip := fun o => snipOf fl jf o.1 (d o.1) (x o.1) (l o.1))
    (fun o => run_treatedMachine (hl _ o.2.1) ha o.2.2 (hs _ o.2.1 o.2.2)) hb g

/-- **C101, signals.** Likewise with one thread, exceptions and signals.  Missing: as in
`C92_signals_partial`. -/
theorem C101_signals_partial (hl : ∀ o ∈ os, DoneTo fl skip os res o (l o)) (ha : fl.asserts = true)
    (hs : ∀ o ∈ os, Considered fl o → SuitableMachine fl skip jf o (d o) (x o))
    (hb : ToolBinds d who binds) {H : Func → List Ev → Func → Prop}
    (hH : HandlersIn (toolSem fl os d l who binds) (toolUnsafe d who) H)
    {own : W → Prop} (hown : ∀ v, own v → ¬ GuardLike v) (depth : Nat) (g : W) (f : Func) :
    SProtected ((toolSem fl os d l who binds).handling H) (toolFrame x who)
      (signalled ((toolSem fl os d l who binds).handling H) (toolFrame x who) (toolSnip jf d x l who) own depth g)
      own g f :=
  C92_signals_partial (ι := Part fl os) (obj := fun o => objOf fl o.1 (d o.1) (l o.1))
    (wr := fun o => unsafeIn fl o.1 (d o.1)) (frame := fun o => (x o.1).frame)
    (snip := fun o => snipOf fl jf o.1 (d o.1) (x o.1) (l o.1))
    (fun o => run_treatedMachine (hl _ o.2.1) ha o.2.2 (hs _ o.2.1 o.2.2)) hb hH hown depth g f

end

/-- **C101.** If the tool's `main` returns 0, the program consisting of all code objects of the binary which
the tool considers is protected when it is executed with the code that the tool has emitted, with threads and
exceptions and, in one thread, with signals.  Missing: what is missing in `C92_threads_partial` and
`C100_signals_partial`, and that Dyninst writes the program as it is asked to. -/
theorem C101_main_partial {h : Host} {fl : ToolFlags} {binary : String} {rest : List String}
    {res : List (BFunc × Plan)} {st : Stats} {w : Option String} {os : List BObject}
    {d : BObject → ObjData} {x : BObject → MachineData} {who : Func → Part fl.instr os × Func}
    {binds : List Char → Func → Prop} (e : toolMain h fl (binary :: rest) = .zero res st w)
    (hob : h.opens binary = some os) (ha : fl.instr.asserts = true)
    (hs : ∀ o ∈ os, Considered fl.instr o →
      SuitableMachine fl.instr (skipsOf h fl.skipList) fl.jit o (d o) (x o)) (hb : ToolBinds d who binds) :
    ∃ l : BObject → List (BFunc × Plan),
      (∀ o ∈ os, DoneTo fl.instr (skipsOf h fl.skipList) os res o (l o)) ∧
      (∀ g : Nat → W, TeamProtected (toolSem fl.instr os d l who binds) (toolFrame x who)
        (toolSnip fl.jit d x l who) Needs g) ∧
      ∀ H, HandlersIn (toolSem fl.instr os d l who binds) (toolUnsafe d who) H →
        ∀ own : W → Prop, (∀ v, own v → ¬ GuardLike v) → ∀ depth g f,
          SProtected ((toolSem fl.instr os d l who binds).handling H) (toolFrame x who)
            (signalled ((toolSem fl.instr os d l who binds).handling H) (toolFrame x who)
              (toolSnip fl.jit d x l who) own depth g) own g f := by
  obtain ⟨_, b, r, objs, h1, h2, h3, _⟩ := toolMain_zero e
  cases h1
  rw [hob] at h2
  cases h2
  obtain ⟨l, hl⟩ := Classical.axiomOfChoice fun o : BObject =>
    show ∃ l, o ∈ os → DoneTo fl.instr (skipsOf h fl.skipList) os res o l from Classical.byCases
      (fun hm => (C90_done h3 hm).imp fun _ k _ => k) fun hm => ⟨[], fun k => absurd k hm⟩
  exact ⟨l, hl, C101_threads_partial hl ha hs hb,
    fun H hH own hown depth g f => C101_signals_partial hl ha hs hb hH hown depth g f⟩

end Verif
