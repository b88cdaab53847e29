import Verif.Props.RunMachine
import Verif.Props.ObjectsExamples

/-!
# C101: an example
-/

namespace Verif

theorem main_cleanup : ∀ f ∈ mainProg.code.funcs, CleanupOnly mainProg.code mainProg.sums f := by
  intro f _ b _ e he _ hc
  have : ∀ e ∈ mainProg.edges, e.type ≠ .catch := by decide +kernel
  exact absurd hc (this e (Small.mem_targets.mp he).1)

/-- The instructions of the program and of the library. -/
def twoMachine (frame : Func → Reg) (o : BObject) : MachineData :=
  if o.path = "/bin/prog" then ⟨mainProg.binary, fun _ => {}, frame⟩ else ⟨libProg.binary, fun _ => {}, frame⟩

theorem two_suitableMachine (frame : Func → Reg) : ∀ o ∈ twoObjects,
    SuitableMachine libFlags [] {} o (twoData o) (twoMachine frame o) := by
  intro o ho
  refine ⟨two_suitable o ho, ?_, ?_, fun h => absurd rfl h⟩
  all_goals
    simp only [twoObjects, List.mem_cons, List.not_mem_nil, or_false] at ho
    have hne : ¬ (libProg.object "/opt/liby.so" 1).path = "/bin/prog" := by
      change ¬ ("/opt/liby.so" = "/bin/prog"); decide +kernel
  · rcases ho with rfl | rfl
    · rw [show twoData (mainProg.object "/bin/prog" 1) = mainProg.data from if_pos rfl]
      exact mainProg_ok.handlers
    · rw [show twoData (libProg.object "/opt/liby.so" 1) = libProg.data from if_neg hne]
      exact libProg_ok.handlers
  · intro _
    rcases ho with rfl | rfl
    · rw [show twoData (mainProg.object "/bin/prog" 1) = mainProg.data from if_pos rfl,
        show twoMachine frame (mainProg.object "/bin/prog" 1) = _ from if_pos rfl]
      exact ⟨{ mainProg.binaryOk rfl frame with }, fun f hf _ _ => main_cleanup f hf⟩
    · rw [show twoData (libProg.object "/opt/liby.so" 1) = libProg.data from if_neg hne,
        show twoMachine frame (libProg.object "/opt/liby.so" 1) = _ from if_neg hne]
      exact ⟨{ libProg.binaryOk rfl frame with }, fun f hf _ _ => lib_cleanup f hf⟩

/-- A machine with the program, which is linked with the library. -/
def twoHost : Host where
  opens p := if p = "/bin/prog" then some twoObjects else none
  file _ := none
  canWrite n := n = "/bin/prog_cfi"

theorem twoHost_run : ∃ l st,
    toolMain twoHost { instr := libFlags } ["/bin/prog"] = .zero l st (some "/bin/prog_cfi") := by
  have hsome : (instrument libFlags [] twoObjects).isSome = true := by decide +kernel
  obtain ⟨⟨l, st⟩, hr⟩ := Option.isSome_iff_exists.mp hsome
  refine ⟨l, st, ?_⟩
  have ho : twoHost.opens "/bin/prog" = some twoObjects := by simp [twoHost]
  have hi : instrument libFlags (skipsOf twoHost "") twoObjects = some (l, st) := hr
  have hw : twoHost.canWrite (outputName "" "/bin/prog") = true := by decide +kernel
  have hn : outputName "" "/bin/prog" = "/bin/prog_cfi" := by decide +kernel
  unfold toolMain
  rw [if_neg (by decide +kernel)]
  simp only [ho, hi, hw, if_true]
  rw [hn]

/-- A signal may start the library's function which writes, between push and check of the program's
function. -/
def twoHandler (f : Func) (t : List Ev) (h : Func) : Prop := f = 0 ∧ h = 10 ∧ .push ∈ t ∧ .check ∉ t

theorem two_reg (l : BObject → List (BFunc × Plan)) :
    ¬ (toolSem libFlags twoObjects twoData l twoWho twoBinds).inReg 0 := by
  have hd : twoData (mainProg.object "/bin/prog" 1) = mainProg.data := if_pos rfl
  rintro ⟨-, k⟩
  have : useRegFrame libFlags (some ((twoData (mainProg.object "/bin/prog" 1)).sums 0)) = true := k
  rw [hd] at this
  revert this
  decide +kernel

theorem two_unsafe : toolUnsafe twoData twoWho 10 := by
  have he : twoData (libProg.object "/opt/liby.so" 1) = libProg.data := if_neg (by
      change ¬ ("/opt/liby.so" = "/bin/prog"); decide +kernel)
  have : (twoData (libProg.object "/opt/liby.so" 1)).sums 0 = libProg.sums 0 := by rw [he]; rfl
  show ((twoData (libProg.object "/opt/liby.so" 1)).sums 0).writes = true
  rw [this]
  decide +kernel

theorem two_handlersIn (l : BObject → List (BFunc × Plan)) :
    HandlersIn (toolSem libFlags twoObjects twoData l twoWho twoBinds) (toolUnsafe twoData twoWho) twoHandler := by
  have hd : twoData (mainProg.object "/bin/prog" 1) = mainProg.data := if_pos rfl
  rintro f t _ ⟨rfl, rfl, k1, k2⟩
  refine ⟨two_reg l, fun _ => ⟨?_, fun _ => ⟨k1, k2⟩⟩⟩
  have : (twoData (mainProg.object "/bin/prog" 1)).sums 0 = mainProg.sums 0 := by rw [hd]; rfl
  show ((twoData (mainProg.object "/bin/prog" 1)).sums 0).writes = true
  rw [this]
  decide +kernel

/-- Example for `C101_main_partial`: the program of `C92` and its library, with a signal handler. -/
example (frame : Func → Reg) : ∃ res st w, toolMain twoHost { instr := libFlags } ["/bin/prog"] = .zero res st w ∧
    ∃ l : BObject → List (BFunc × Plan), (∀ o ∈ twoObjects, DoneTo libFlags [] twoObjects res o (l o)) ∧
      (∀ g : Nat → W, TeamProtected (toolSem libFlags twoObjects twoData l twoWho twoBinds)
        (toolFrame (twoMachine frame) twoWho) (toolSnip {} twoData (twoMachine frame) l twoWho) Needs g) ∧
      (¬ (toolSem libFlags twoObjects twoData l twoWho twoBinds).inReg 0 ∧ toolUnsafe twoData twoWho 10) ∧
      ∀ depth g f,
        SProtected ((toolSem libFlags twoObjects twoData l twoWho twoBinds).handling twoHandler)
          (toolFrame (twoMachine frame) twoWho)
          (signalled ((toolSem libFlags twoObjects twoData l twoWho twoBinds).handling twoHandler)
            (toolFrame (twoMachine frame) twoWho) (toolSnip {} twoData (twoMachine frame) l twoWho)
            (· = 0x402000) depth g) (· = 0x402000) g f := by
  obtain ⟨res, st, h⟩ := twoHost_run
  have hb : ToolBinds twoData twoWho twoBinds := two_bind
  obtain ⟨l, h1, h2, h3⟩ := C101_main_partial (fl := { instr := libFlags }) (os := twoObjects) (d := twoData)
    (x := twoMachine frame) (who := twoWho) (binds := twoBinds) h (by simp [twoHost]) rfl (fun o ho _ => two_suitableMachine frame o ho) hb
  exact ⟨res, st, _, h, l, h1, h2, ⟨two_reg l, two_unsafe⟩, fun depth g f => h3 _ (two_handlersIn l) _
    (by rintro v rfl; decide +kernel) depth g f⟩

end Verif
