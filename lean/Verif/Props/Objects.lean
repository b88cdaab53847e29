import Verif.Objects
import Verif.Props.ToolRun
import Verif.Props.Multi

/-!
# C92: programs consisting of several instrumented code objects
-/

namespace Verif

/-! ## From the parts to the whole -/

/-- What is needed of each code object. -/
structure ObjSound (ok : Edge → Prop) (o : Obj) (wr : Func → Prop) : Prop where
  sound : Sound (o.sem ok) wr
  lib : ∀ f t n, o.libCall ok f t n → ¬ o.inReg f

/-- What is needed of the loader: names of trusted functions are bound to functions which do not write
unsafely, and what does not return leaves by jumps to library functions only if these do not return
either. -/
structure BindOk {ι : Type} (code : ι → CodeObj) (stays wr : ι → Func → Prop) (who : Func → ι × Func)
    (binds : List Char → Func → Prop) : Prop where
  trusted : ∀ n g, TrustedName n → binds n g → ¬ wr (who g).1 (who g).2
  stays : ∀ i, ∀ f ∈ (code i).funcs, stays i f → ∀ b ∈ (code i).exitBlocks f, ∀ e ∈ (code i).targets b,
    ∀ n g, LibJump (code i) e n → binds n g → stays (who g).1 (who g).2

section
variable {ok : Edge → Prop} {o : Obj} {wr : Func → Prop}

theorem Obj.outside_danger {f : Func} {t : List Ev} (h : o.outside ok f t) : (o.sem ok).danger f t := .inr h

theorem Obj.outside_start {f : Func} {t : List Ev} (h : o.outside ok f t) :
    (o.sem ok).trace f t ∧ (o.sem ok).calls f t f := by
  rcases h with ⟨b, h1, e, h2, h3⟩ | ⟨b, h1, e, h2, h3⟩
  · exact ⟨h1.1, h1.1.1, .inl ⟨b, h1, e, h2, .inr h3⟩⟩
  · obtain ⟨k1, k2, k3, es, k4, rfl⟩ := id h1
    exact ⟨⟨k1, [], es, b, k4, by simp⟩, k1, .inr ⟨b, h1, e, h2, h3⟩⟩

/-- A call of a library function is one of a trusted function or of unknown code. -/
theorem LibCall.unknown {co : CodeObj} {e : Edge} {n : List Char} (h : LibCall co e n)
    (hn : ¬ TrustedName n) : UnknownCall co e := by
  obtain ⟨h1, h2, h3⟩ := h
  refine ⟨h1, ?_, ?_⟩
  · rintro ⟨n', ⟨-, -, k⟩, kt⟩
    rw [h3] at k
    cases k
    exact hn kt
  · rintro ⟨g, -, -, -, k, -⟩
    rw [h3] at k
    cases k

theorem LibJump.unknown {co : CodeObj} {e : Edge} {n : List Char} (h : LibJump co e n)
    (hn : ¬ TrustedName n) : UnknownJump co e := by
  obtain ⟨h1, h2, h3⟩ := h
  refine ⟨h1, ?_, ?_⟩
  · rintro ⟨n', -, k, kt⟩
    rw [h3] at k
    cases k
    exact hn kt
  · rintro ⟨g, -, -, -, k, -⟩
    rw [h3] at k
    cases k

/-- The conditions hold of the whole if they hold of the parts, and calls and jumps to trusted names lead to
unsafe functions only from where it does not matter. -/
theorem all_sound_of {ι : Type} {obj : ι → Obj} {wr : ι → Func → Prop} (h : ∀ i, ObjSound ok (obj i) (wr i))
    {who : Func → ι × Func} {binds : List Char → Func → Prop}
    (hcall : ∀ i f t n g, TrustedName n → binds n g → wr (who g).1 (who g).2 → (obj i).libCall ok f t n →
      wr i f ∧ (¬ (obj i).stays f → IsOpen t))
    (hjump : ∀ i f t n g, TrustedName n → binds n g → wr (who g).1 (who g).2 → (obj i).libJump ok f t n →
      wr i f)
    (hstays : ∀ i f t n g, binds n g → (obj i).libJump ok f t n → (obj i).stays f →
      (obj (who g).1).stays (who g).2) :
    Sound (semAll ok obj who binds) (fun f => wr (who f).1 (who f).2) where
  danger f t ht hd := (h (who f).1).sound.danger _ _ ht hd
  calls f t g ht hc hw := by
    have hs := (h (who f).1).sound
    obtain ⟨-, ⟨e, hc⟩ | ho | ⟨n, hl, hbn⟩⟩ := hc
    · exact hs.calls _ _ _ ht hc (by rw [← e]; exact hw)
    · exact hs.danger _ _ ht (Obj.outside_danger ho)
    · by_cases hn : TrustedName n
      · exact hcall _ _ _ _ _ hn hbn hw hl
      · obtain ⟨b, hat, e, he, hl⟩ := hl
        exact hs.danger _ _ ht (.inr (.inl ⟨b, hat, e, he, hl.unknown hn⟩))
  tails f t g hc hw := by
    have hs := (h (who f).1).sound
    obtain ⟨-, ⟨e, hc⟩ | ⟨n, hl, hbn⟩⟩ := hc
    · exact hs.tails _ _ _ hc (by rw [← e]; exact hw)
    · by_cases hn : TrustedName n
      · exact hjump _ _ _ _ _ hn hbn hw hl
      · obtain ⟨b, hat, e, he, hl⟩ := hl
        have ho : (obj (who f).1).outside ok (who f).2 t := .inr ⟨b, hat, e, he, hl.unknown hn⟩
        exact (hs.danger _ _ (.inr (Obj.outside_start ho).1) (Obj.outside_danger ho)).1
  stays f t g hc hst := by
    have hs := (h (who f).1).sound
    obtain ⟨-, ⟨e, hc⟩ | ⟨n, hl, hbn⟩⟩ := hc
    · have := hs.stays _ _ _ hc hst
      change (obj (who g).1).stays _
      rw [e]
      exact this
    · exact hstays _ _ _ _ _ hbn hl hst
  push f t := (h (who f).1).sound.push _ _
  check f t := (h (who f).1).sound.check _ _
  complete f t := (h (who f).1).sound.complete _ _
  inReg f t g hc := by
    have hs := (h (who f).1).sound
    obtain ⟨-, ⟨e, hc⟩ | ho | ⟨n, hl, hbn⟩⟩ := hc
    · exact hs.inReg _ _ _ hc
    · exact hs.inReg _ _ _ (Obj.outside_start ho).2
    · exact (h (who f).1).lib _ _ n hl

/-- The conditions hold of the whole if they hold of the parts and of the loader. -/
theorem all_sound {ι : Type} {obj : ι → Obj} {wr : ι → Func → Prop} (h : ∀ i, ObjSound ok (obj i) (wr i))
    {who : Func → ι × Func} {binds : List Char → Func → Prop}
    (hb : BindOk (fun i => (obj i).code) (fun i => (obj i).stays) wr who binds) :
    Sound (semAll ok obj who binds) (fun f => wr (who f).1 (who f).2) :=
  all_sound_of h (fun _ _ _ n g hn hbn hw _ => absurd hw (hb.trusted n g hn hbn))
    (fun _ _ _ n g hn hbn hw _ => absurd hw (hb.trusted n g hn hbn))
    fun _ _ _ n g hbn ⟨b, hat, e, he, hl⟩ hst => hb.stays _ _ hat.1 hst b hat.2.1 e he n g hl hbn

end

/-! ## Code objects treated by the tool -/

theorem atEnd_block {ok : Edge → Prop} {co : CodeObj} {plan : Func → Plan} {f : Func} {t : List Ev} {b : Blk}
    (h : AtEndOn ok co plan f t b) :
    f ∈ co.funcs ∧ ∃ es b', Walk co.targets ok (co.entry f) es b' ∧
      .block b ∈ (plan f).trace (co.entry f) es := by
  obtain ⟨⟨hf, t', es, b', hw, ht⟩, ⟨t0, hl⟩, -⟩ := h
  refine ⟨hf, es, b', hw, ?_⟩
  rw [← ht]
  rcases hl with rfl | rfl <;> simp

section
variable {fl : InstrFlags} {skip : List Nat} {jf : JitFlags} {co : CodeObj} {info : StackInfo}
  {R : Func → RegFacts} {T : Sums} {bf : Func → BFunc} {plan : Func → Plan}

/-- A code object treated in light mode. -/
def lightObj (fl : InstrFlags) (co : CodeObj) (info : StackInfo) (T : Sums) (bf : Func → BFunc)
    (plan : Func → Plan) : Obj :=
  ⟨co, info, plan, inRegOf fl T, staysOf bf⟩

/-- A code object treated in full mode. -/
def fullObj (co : CodeObj) (info : StackInfo) (bf : Func → BFunc) (plan : Func → Plan) : Obj :=
  ⟨co, info, plan, fun _ => False, staysOf bf⟩

theorem light_lib (hb : Built fl skip co info R T bf plan) {ok : Edge → Prop}
    (hcl : ∀ f ∈ co.funcs, ∀ b ∈ co.blocks f, ∀ e ∈ co.targets b, ok e → e.trg ∈ co.blocks f)
    (f : Func) (t : List Ev) (n : List Char) :
    (lightObj fl co info T bf plan).libCall ok f t n → ¬ inRegOf fl T f := by
  rintro ⟨b, hat, e, he, hl⟩ hr
  obtain ⟨hf, es, b', hw, hx⟩ := atEnd_block hat
  exact inReg_noCall hb hf hr b (plan_blocks hb hf (hcl f hf) hw hx) e he hl.1

/-- The code object has been treated in one of the modes and meets the conditions of
`C45_protected_partial` or `C89_protected_partial`.  `wr`: the functions which may write unsafely. -/
inductive Treated (fl : InstrFlags) (skip : List Nat) : Obj → (Func → Prop) → Prop
  | light {co : CodeObj} {info : StackInfo} {R : Func → RegFacts} {T : Sums} {bf : Func → BFunc}
      {plan : Func → Plan} : Built fl skip co info R T bf plan →
      (∀ f ∈ co.funcs, NoCallAtCheck fl co (bf f) ∧ CallsCovered T f ∧ TailsOk co T f ∧
        LeftOk skip co T bf f) →
      Treated fl skip (lightObj fl co info T bf plan) (Wr T)
  | full {co : CodeObj} {info : StackInfo} {bf : Func → BFunc} {plan : Func → Plan} :
      BuiltFull fl skip co bf plan → (∀ f ∈ co.funcs, FullOk co info bf f) →
      Treated fl skip (fullObj co info bf plan) (Risky co info)

theorem Treated.sound {o : Obj} {wr : Func → Prop} (h : Treated fl skip o wr) : ObjSound Follow o wr := by
  cases h with
  | light hb hc =>
    exact ⟨built_sound hb (fun f hf => (hc f hf).1) (fun f hf => (hc f hf).2.1)
      (fun f hf => (hc f hf).2.2.1) fun f hf => (hc f hf).2.2.2,
      light_lib hb fun f hf => (hb.func f hf).wf.closed⟩
  | full hb hc => exact ⟨full_sound hb hc, fun _ _ _ _ h => h⟩

/-- In addition its handlers meet the conditions of `C86_protected_partial`, and `snip` is the code emitted
for it, under the conditions of `C80_planned_partial`. -/
inductive TreatedMachine (fl : InstrFlags) (skip : List Nat) (jf : JitFlags) :
    Obj → (Func → Prop) → (Func → Reg) → (Func → Ev → Code → State → W → Prop) → Prop
  | light {co : CodeObj} {info : StackInfo} {R : Func → RegFacts} {T : Sums} {bf : Func → BFunc}
      {plan : Func → Plan} {B : Binary} {dead : Func → DeadNames} {frame : Func → Reg} :
      BinaryOk B fl jf co info R bf dead frame → Built fl skip co info R T bf plan →
      (∀ f ∈ co.funcs, NoCallAtCheck fl co (bf f) ∧ CallsCovered T f ∧ TailsOk co T f ∧
        LeftOk skip co T bf f) →
      (∀ f ∈ co.funcs, HandlersOk co (bf f) f) →
      (∀ f ∈ co.funcs, ∀ L, doLowering fl co f (some (T f)) = some (some L) → CleanupOnly co T f) →
      TreatedMachine fl skip jf (lightObj fl co info T bf plan) (Wr T) frame
        (B.Snippet jf (fun f => (T f).jit (dead f)) co plan)
  | full {co : CodeObj} {info : StackInfo} {bf : Func → BFunc} {plan : Func → Plan} {B : Binary}
      {frame : Func → Reg} :
      FullBinaryOk B jf co → BuiltFull fl skip co bf plan → (∀ f ∈ co.funcs, FullOk co info bf f) →
      (∀ f ∈ co.funcs, HandlersOk co (bf f) f) →
      TreatedMachine fl skip jf (fullObj co info bf plan) (Risky co info) frame (B.FullSnippet jf co plan)

theorem TreatedMachine.sound {o : Obj} {wr : Func → Prop} {frame : Func → Reg}
    {snip : Func → Ev → Code → State → W → Prop}
    (h : TreatedMachine fl skip jf o wr frame snip) : ObjSound Flow o wr := by
  cases h with
  | light _ hb hc hh hl =>
    exact ⟨built_sound_handlers hb (fun f hf => (hc f hf).1) (fun f hf => (hc f hf).2.1)
      (fun f hf => (hc f hf).2.2.1) (fun f hf => (hc f hf).2.2.2) hh hl,
      light_lib hb fun f hf => (hh f hf).closed⟩
  | full _ hb hc hh => exact ⟨full_sound_handlers hb hc hh, fun _ _ _ _ h => h⟩

theorem TreatedMachine.fits {o : Obj} {wr : Func → Prop} {frame : Func → Reg}
    {snip : Func → Ev → Code → State → W → Prop}
    (h : TreatedMachine fl skip jf o wr frame snip) {f : Func} {t : List Ev} {ev : Ev} {c : Code} {s : State}
    {r : W} (ht : (o.sem Flow).trace f (t ++ [ev])) (hs : snip f ev c s r) :
    SnipFits (o.inReg f) (frame f) c s r ev := by
  cases h with
  | light hB hb hc =>
    exact snippets_fit hB hb (fun f hf => (hc f hf).1) (And.left (b := ∃ _, _) ht) hs
  | full hB hb => exact full_fit hB hb (And.left (b := ∃ _, _) ht) hs

end

/-! ## The theorems -/

section
variable {fl : InstrFlags} {skip : List Nat} {jf : JitFlags} {ι : Type} {obj : ι → Obj}
  {wr : ι → Func → Prop} {who : Func → ι × Func} {binds : List Char → Func → Prop}

/-- **C92, what holds.** A program consisting of any number of code objects treated by the tool is
protected, whatever function of whichever of them it starts with, if each of them meets the conditions
of `C45_protected_partial` or `C89_protected_partial` and names of trusted functions are bound to
harmless functions.  Missing: as there, and other bindings of trusted names, for which it is false
(`C92_refuted`). -/
theorem C92_protected_partial (h : ∀ i, Treated fl skip (obj i) (wr i))
    (hb : BindOk (fun i => (obj i).code) (fun i => (obj i).stays) wr who binds) (f : Func) :
    Protected (semAll Follow obj who binds) f :=
  (all_sound (fun i => (h i).sound) hb).protected f

/-- **C92 with several threads**, exceptions, and the emitted code executed on the machine.  Missing: as
before, and what is missing in `C88_threads_partial`. -/
theorem C92_threads_partial {frame : ι → Func → Reg} {snip : ι → Func → Ev → Code → State → W → Prop}
    (h : ∀ i, TreatedMachine fl skip jf (obj i) (wr i) (frame i) (snip i))
    (hb : BindOk (fun i => (obj i).code) (fun i => (obj i).stays) wr who binds) (g : Nat → W) :
    TeamProtected (semAll Flow obj who binds) (fun f => frame (who f).1 (who f).2)
      (fun f => snip (who f).1 (who f).2) Needs g :=
  (all_sound (fun i => (h i).sound) hb).team (fun f _ _ _ _ _ ht hs => (h (who f).1).fits ht hs) g

end

/-! ## Full mode, whatever trusted names are bound to -/

/-- Jumps out of the function lead to functions of the program or trusted library functions; a function
outside `.text` does not return, and if a function does not return, neither do the functions it jumps
to. -/
structure TextOk (co : CodeObj) (bf : Func → BFunc) (f : Func) : Prop where
  known : ∀ b ∈ co.exitBlocks f, ∀ e ∈ co.targets b, ¬ UnknownJump co e
  text : (bf f).region ≠ ".text" → (bf f).noReturn = true
  jumps : (bf f).noReturn = true → ∀ b ∈ co.exitBlocks f, ∀ e ∈ co.targets b, ∀ g ∈ co.funcs,
    JumpTo co e g → (bf g).noReturn = true

section
variable {fl : InstrFlags} {skip : List Nat} {co : CodeObj} {info : StackInfo}
  {bf : Func → BFunc} {plan : Func → Plan}

/-- Every block is executed between push and check. -/
theorem full_inside (hb : BuiltFull fl skip co bf plan) {f : Func} (hf : f ∈ co.funcs)
    (hok : TextOk co bf f) (hst : ¬ staysOf bf f) {ok : Edge → Prop}
    (hex : ∀ b ∈ co.exitBlocks f, isNonreturningCall (co.targets b) = false →
      ∀ e ∈ co.targets b, ¬ ok e) (bad : Blk → Prop)
    {es : List Edge} {b' : Blk} (hw : Walk co.targets ok (co.entry f) es b') :
    Pre bad (fun b => ∀ e ∈ co.targets b, e.type ≠ .call)
      (b' ∈ co.exitBlocks f ∧ isNonreturningCall (co.targets b') = false) none
      ((plan f).trace (co.entry f) es) := by
  have hfo := hb.func f hf
  have hr : (bf f).region = ".text" := Classical.byContradiction fun h => hst (hok.text h)
  rw [hb.plan_eq hf (by simpa [staysOf] using hst) hr]
  change Pre _ _ _ _ (pointTrace _ _ _ _)
  unfold pointTrace
  rw [show [co.entry f].count (co.entry f) = 1 by simp]
  refine point_mid (fun b => ?_) hex (fun b h1 h2 => exit_noCall hfo h1 h2) hw _
  rw [filter_count hfo.nodup]
  simp

theorem full_objSound (hb : BuiltFull fl skip co bf plan) (hok : ∀ f ∈ co.funcs, TextOk co bf f)
    {ok : Edge → Prop}
    (hcl : ∀ f ∈ co.funcs, ∀ b ∈ co.blocks f, ∀ e ∈ co.targets b, ok e → e.trg ∈ co.blocks f)
    (hex : ∀ f ∈ co.funcs, ∀ b ∈ co.exitBlocks f, isNonreturningCall (co.targets b) = false →
      ∀ e ∈ co.targets b, ¬ ok e) :
    ObjSound ok (fullObj co info bf plan) (fun _ => True) where
  sound := shape_sound hb.func (fun _ _ _ _ _ => trivial) (fun f hf => (hok f hf).known)
    (fun f hf b hbx e he g hg hj =>
      ⟨fun _ => trivial, fun hs => (hok f hf).jumps hs b hbx e he g hg hj⟩)
    (fun f hf hs => hb.left f hf (.inl hs)) (fun _ _ h => h.elim)
    (fun f hf _ _ hw _ hx => full_blocks hb hf (hcl f hf) hw hx)
    fun f hf hs _ _ hw => full_inside hb hf (hok f hf) hs (hex f hf) _ hw
  lib _ _ _ _ h := h

/-- Calls of library functions are made between push and check. -/
theorem full_libCall (hb : BuiltFull fl skip co bf plan) (hok : ∀ f ∈ co.funcs, TextOk co bf f)
    {ok : Edge → Prop}
    (hex : ∀ f ∈ co.funcs, ∀ b ∈ co.exitBlocks f, isNonreturningCall (co.targets b) = false →
      ∀ e ∈ co.targets b, ¬ ok e) {f : Func} {t : List Ev} {n : List Char}
    (h : (fullObj co info bf plan).libCall ok f t n) (hs : ¬ staysOf bf f) : IsOpen t := by
  obtain ⟨b, ⟨⟨hf, t', es, b', hw, ht⟩, ⟨t0, hl⟩, -⟩, e, he, hc⟩ := h
  have hp := full_inside hb hf (hok f hf) hs (hex f hf) (fun _ => True) hw
  rw [show (plan f).trace (co.entry f) es = t ++ t' from ht.symm] at hp
  rcases hl with rfl | rfl
  · rw [List.append_assoc] at hp
    exact pre_bad hp trivial
  · rw [List.append_assoc] at hp
    exact absurd hc.1 (pre_noCall hp e he)

end

/-- A code object treated in full mode, all of whose functions which may return are in `.text`. -/
inductive TreatedFull (fl : InstrFlags) (skip : List Nat) : Obj → Prop
  | mk {co : CodeObj} {info : StackInfo} {bf : Func → BFunc} {plan : Func → Plan} :
      BuiltFull fl skip co bf plan → (∀ f ∈ co.funcs, TextOk co bf f) →
      TreatedFull fl skip (fullObj co info bf plan)

theorem TreatedFull.sound {fl : InstrFlags} {skip : List Nat} {o : Obj} (h : TreatedFull fl skip o) :
    ObjSound Follow o (fun _ => True) ∧ ∀ f t n, o.libCall Follow f t n → ¬ o.stays f → IsOpen t := by
  cases h with
  | mk h1 h2 =>
    exact ⟨full_objSound h1 h2 (fun f hf => (h1.func f hf).wf.closed)
      fun f hf b hbx _ => (h1.func f hf).exits b hbx,
      fun _ _ _ hl => full_libCall h1 h2 (fun f hf b hbx _ => (h1.func f hf).exits b hbx) hl⟩

/-- **C92 in full mode.** If all code objects are treated in full mode and all functions which may return
are in `.text`, the program is protected whatever the names of library functions, trusted or not, are
bound to.  Missing: jumps to unknown functions, functions outside `.text`. -/
theorem C92_full_partial {fl : InstrFlags} {skip : List Nat} {ι : Type} {obj : ι → Obj}
    {who : Func → ι × Func} {binds : List Char → Func → Prop} (h : ∀ i, TreatedFull fl skip (obj i))
    (hb : BindOk (fun i => (obj i).code) (fun i => (obj i).stays) (fun _ _ => False) who binds) (f : Func) :
    Protected (semAll Follow obj who binds) f := by
  refine (all_sound_of (wr := fun _ _ => True) (fun i => ?_) (fun i f t n g _ _ _ hl => ⟨trivial, ?_⟩)
    (fun _ _ _ _ _ _ _ _ _ => trivial)
    fun _ _ _ n g hbn ⟨b, hat, e, he, hl⟩ hst => hb.stays _ _ hat.1 hst b hat.2.1 e he n g hl hbn).protected f
  · exact (h i).sound.1
  · exact (h i).sound.2 f t n hl

/-! ## A run of the tool -/

/-- What Dyninst and the analyses tell about a code object. -/
structure ObjData where
  info : StackInfo
  regs : Func → RegFacts
  sums : Sums
  bfunc : Func → BFunc
  writes : Func → List WriteInfo

/-- The code object is as Dyninst shows code objects, and meets the conditions of `C90_protected_partial`. -/
structure Suitable (fl : InstrFlags) (skip : List Nat) (o : BObject) (d : ObjData) : Prop where
  shown : Shows o d.bfunc
  code : CodeOk o.code
  func : ∀ f ∈ o.code.funcs, FuncOk o.code f
  view : ∀ f ∈ o.code.funcs, View o.code d.info (d.bfunc f) f
  analysed : analyse o.code d.info d.regs = some d.sums
  table : o.analyses = analysisTable o.code d.sums d.writes
  light : fl.shadowStack = "light" → ∀ f ∈ o.code.funcs, NoCallAtCheck fl o.code (d.bfunc f) ∧
    CallsCovered d.sums f ∧ TailsOk o.code d.sums f ∧ LeftOk skip o.code d.sums d.bfunc f
  full : fl.shadowStack ≠ "light" → ∀ f ∈ o.code.funcs, FullOk o.code d.info d.bfunc f

/-- The functions which may write unsafely. -/
def unsafeIn (fl : InstrFlags) (o : BObject) (d : ObjData) (f : Func) : Prop :=
  if fl.shadowStack = "light" then (d.sums f).writes = true else Risky o.code d.info f

/-- What a run of the tool makes of the code object, if it treats its functions as `l` says. -/
def objOf (fl : InstrFlags) (o : BObject) (d : ObjData) (l : List (BFunc × Plan)) : Obj :=
  ⟨o.code, d.info, planOf l, inRegIn fl d.sums, staysOf d.bfunc⟩

section
variable {fl : InstrFlags} {skip : List Nat} {os : List BObject} {res l : List (BFunc × Plan)} {o : BObject}
  {d : ObjData}

theorem objOf_light (hl : fl.shadowStack = "light") :
    objOf fl o d l = lightObj fl o.code d.info d.sums d.bfunc (planOf l) ∧ unsafeIn fl o d = Wr d.sums := by
  refine ⟨?_, ?_⟩
  · rw [objOf, inRegIn_light hl]
    rfl
  · funext f
    simp only [unsafeIn, if_pos hl]

theorem objOf_full (hl : fl.shadowStack ≠ "light") :
    objOf fl o d l = fullObj o.code d.info d.bfunc (planOf l) ∧ unsafeIn fl o d = Risky o.code d.info := by
  refine ⟨?_, ?_⟩
  · rw [objOf, inRegIn_full hl]
    rfl
  · funext f
    simp only [unsafeIn, if_neg hl]

theorem run_treated (h : DoneTo fl skip os res o l) (ha : fl.asserts = true)
    (hc : Considered fl o) (hd : Suitable fl skip o d) : Treated fl skip (objOf fl o d l) (unsafeIn fl o d) := by
  by_cases hl : fl.shadowStack = "light"
  · rw [(objOf_light hl).1, (objOf_light (l := l) hl).2]
    exact .light (C90_light h hc hd.shown hl ha hd.code hd.func hd.view hd.analysed hd.table) (hd.light hl)
  · rw [(objOf_full hl).1, (objOf_full (l := l) hl).2]
    exact .full (C90_full h hc hd.shown hl hd.func hd.view) (hd.full hl)

end

/-- **C92 for a run of the tool.** After a run of the tool, the program consisting of all code objects
which it considers is protected.  Missing: as before. -/
theorem C92_run_partial {fl : InstrFlags} {skip : List Nat} {os : List BObject}
    {res : List (BFunc × Plan)} {st : Stats} (h : instrument fl skip os = some (res, st))
    (ha : fl.asserts = true) (d : BObject → ObjData)
    (hs : ∀ o ∈ os, Considered fl o → Suitable fl skip o (d o))
    {who : Func → {o : BObject // o ∈ os ∧ Considered fl o} × Func} {binds : List Char → Func → Prop}
    (hb : BindOk (fun o => o.1.code) (fun o => staysOf (d o.1).bfunc) (fun o => unsafeIn fl o.1 (d o.1))
      who binds) :
    ∃ l : BObject → List (BFunc × Plan), (∀ o ∈ os, DoneTo fl skip os res o (l o)) ∧
      ∀ f, Protected (semAll Follow (fun o => objOf fl o.1 (d o.1) (l o.1)) who binds) f := by
  obtain ⟨l, hl⟩ := Classical.axiomOfChoice fun o : BObject =>
    show ∃ l, o ∈ os → DoneTo fl skip os res o l from Classical.byCases
      (fun hm => (C90_done h hm).imp fun _ k _ => k) fun hm => ⟨[], fun k => absurd k hm⟩
  exact ⟨l, hl, C92_protected_partial (fun o => run_treated (hl _ o.2.1) ha o.2.2 (hs _ o.2.1 o.2.2)) hb⟩

end Verif
