import Verif.Props.SignalTeam
import Verif.Props.RunMachine

/-!
# C102: threads and signals after a run of the tool
-/

namespace Verif

/-- **C92 with threads and signals.** Missing: as in `C92_threads_partial` and `C102_signals_partial`. -/
theorem C92_crews_partial {fl : InstrFlags} {skip : List Nat} {jf : JitFlags} {ι : Type} {obj : ι → Obj}
    {wr : ι → Func → Prop} {who : Func → ι × Func} {binds : List Char → Func → Prop}
    {frame : ι → Func → Reg} {snip : ι → Func → Ev → Code → State → W → Prop}
    (h : ∀ i, TreatedMachine fl skip jf (obj i) (wr i) (frame i) (snip i))
    (hb : BindOk (fun i => (obj i).code) (fun i => (obj i).stays) wr who binds)
    {H : Func → List Ev → Func → Prop}
    (hH : HandlersIn (semAll Flow obj who binds) (fun f => wr (who f).1 (who f).2) H)
    {own : W → Prop} (hown : ∀ v, own v → ¬ GuardLike v) (depth : Nat) (g : Nat → W) :
    CrewsProtected ((semAll Flow obj who binds).handling H) (fun f => frame (who f).1 (who f).2)
      (fun f => snip (who f).1 (who f).2) own depth g :=
  ((all_sound (fun i => (h i).sound) hb).handling hH).crews
    (fun f _ _ _ _ _ ht hs => (h (who f).1).fits ht hs) hown depth g

section
variable {fl : InstrFlags} {skip : List Nat} {jf : JitFlags} {os : List BObject}
  {res : List (BFunc × Plan)} {d : BObject → ObjData} {x : BObject → MachineData}
  {who : Func → Part fl os × Func} {binds : List Char → Func → Prop} {l : BObject → List (BFunc × Plan)}

/-- **C102, a run of the tool.** Missing: as in `C92_crews_partial`. -/
theorem C102_run_partial (hl : ∀ o ∈ os, DoneTo fl skip os res o (l o)) (ha : fl.asserts = true)
    (hs : ∀ o ∈ os, Considered fl o → SuitableMachine fl skip jf o (d o) (x o))
    (hb : ToolBinds d who binds) {H : Func → List Ev → Func → Prop}
    (hH : HandlersIn (toolSem fl os d l who binds) (toolUnsafe d who) H)
    {own : W → Prop} (hown : ∀ v, own v → ¬ GuardLike v) (depth : Nat) (g : Nat → W) :
    CrewsProtected ((toolSem fl os d l who binds).handling H) (toolFrame x who) (toolSnip jf d x l who)
      own depth g :=
  C92_crews_partial (ι := Part fl os) (obj := fun o => objOf fl o.1 (d o.1) (l o.1))
    (wr := fun o => unsafeIn fl o.1 (d o.1)) (frame := fun o => (x o.1).frame)
    (snip := fun o => snipOf fl jf o.1 (d o.1) (x o.1) (l o.1))
    (fun o => run_treatedMachine (hl _ o.2.1) ha o.2.2 (hs _ o.2.1 o.2.2)) hb hH hown depth g

end

/-- **C102, `main`.** If the tool's `main` returns 0, the program consisting of all code objects of the binary
which the tool considers is protected when it is executed with the code that the tool has emitted, with
threads, exceptions and signals.  Missing: as in `C101_main_partial`. -/
theorem C102_main_partial {h : Host} {fl : ToolFlags} {binary : String} {rest : List String}
    {res : List (BFunc × Plan)} {st : Stats} {w : Option String} {os : List BObject}
    {d : BObject → ObjData} {x : BObject → MachineData} {who : Func → Part fl.instr os × Func}
    {binds : List Char → Func → Prop} (e : toolMain h fl (binary :: rest) = .zero res st w)
    (hob : h.opens binary = some os) (ha : fl.instr.asserts = true)
    (hs : ∀ o ∈ os, Considered fl.instr o →
      SuitableMachine fl.instr (skipsOf h fl.skipList) fl.jit o (d o) (x o)) (hb : ToolBinds d who binds) :
    ∃ l : BObject → List (BFunc × Plan),
      (∀ o ∈ os, DoneTo fl.instr (skipsOf h fl.skipList) os res o (l o)) ∧
      ∀ H, HandlersIn (toolSem fl.instr os d l who binds) (toolUnsafe d who) H →
        ∀ own : W → Prop, (∀ v, own v → ¬ GuardLike v) → ∀ depth g,
          CrewsProtected ((toolSem fl.instr os d l who binds).handling H) (toolFrame x who)
            (toolSnip fl.jit d x l who) own depth g := by
  obtain ⟨l, hl, _⟩ := C101_main_partial e hob ha hs hb
  exact ⟨l, hl, fun H hH own hown depth g => C102_run_partial hl ha hs hb hH hown depth g⟩

end Verif
