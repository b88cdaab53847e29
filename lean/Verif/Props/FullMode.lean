import Verif.FullMode
import Verif.Props.Multi

/-!
# C89: protection in full mode
-/

namespace Verif

/-! ## Conditions -/

/-- A program instrumented in full mode, whatever the skip list and the analyses say. -/
structure BuiltFull (fl : InstrFlags) (skip : List Nat) (co : CodeObj) (bf : Func → BFunc)
    (plan : Func → Plan) : Prop where
  full : fl.shadowStack ≠ "light"
  func : ∀ f ∈ co.funcs, FuncOk co f
  /-- BPatch shows the same entries and exits -/
  entries : ∀ f ∈ co.funcs, (bf f).entryPoints = [co.entry f]
  exits : ∀ f ∈ co.funcs, (bf f).exitPoints = co.exitBlocks f
  left : ∀ f ∈ co.funcs, (bf f).noReturn = true ∨ (bf f).region ≠ ".text" → plan f = .skipped
  plans : ∀ f ∈ co.funcs, (bf f).noReturn = false → (bf f).region = ".text" →
    ∃ an st st', instrumentFunction fl skip co an (bf f) st = some (plan f, st')

/-- Jumps out of the function lead to functions of the program or trusted library functions; if the
function is outside `.text`, nothing dangerous happens in it or it does not return; and if it does not
return, neither do the functions it jumps to. -/
structure FullOk (co : CodeObj) (info : StackInfo) (bf : Func → BFunc) (f : Func) : Prop where
  known : ∀ b ∈ co.exitBlocks f, ∀ e ∈ co.targets b, ¬ UnknownJump co e
  outside : (bf f).region ≠ ".text" → Risky co info f → (bf f).noReturn = true
  jumps : (bf f).noReturn = true → ∀ b ∈ co.exitBlocks f, ∀ e ∈ co.targets b, ∀ g ∈ co.funcs,
    JumpTo co e g → (bf g).noReturn = true

/-- The stack pointer is at the return address at entries and exits. -/
structure FullBinaryOk (B : Binary) (jf : JitFlags) (co : CodeObj) : Prop where
  normal : Normal jf
  entry : ∀ f ∈ co.funcs, B.hin f (co.entry f) = -8
  exit : ∀ f ∈ co.funcs, ∀ b ∈ co.exitBlocks f, isNonreturningCall (co.targets b) = false →
    B.hout f b = -8

section
variable {fl : InstrFlags} {skip : List Nat} {co : CodeObj} {info : StackInfo}
  {bf : Func → BFunc} {plan : Func → Plan}

theorem BuiltFull.plan_eq (hb : BuiltFull fl skip co bf plan) {f : Func} (hf : f ∈ co.funcs)
    (h1 : (bf f).noReturn = false) (h2 : (bf f).region = ".text") :
    plan f = .full [co.entry f] ((co.exitBlocks f).filter fun b => !isNonreturningCall (co.targets b)) := by
  obtain ⟨an, st, st', h⟩ := hb.plans f hf h1 h2
  unfold instrumentFunction at h
  simp only [if_neg hb.full, Option.some.injEq, Prod.mk.injEq] at h
  rw [← h.1, hb.entries f hf, insertExits, hb.exits f hf]

theorem BuiltFull.full_eq (hb : BuiltFull fl skip co bf plan) {f : Func} (hf : f ∈ co.funcs)
    {ps cs : List Blk} (h : plan f = .full ps cs) :
    ps = [co.entry f] ∧ cs = (co.exitBlocks f).filter fun b => !isNonreturningCall (co.targets b) := by
  by_cases hl : (bf f).noReturn = true ∨ (bf f).region ≠ ".text"
  · rw [hb.left f hf hl] at h
    cases h
  · rw [hb.plan_eq hf (by simpa using fun h' => hl (.inl h'))
      (Classical.byContradiction fun h' => hl (.inr h'))] at h
    cases h
    exact ⟨rfl, rfl⟩

theorem risky_bad {f : Func} {b : Blk} (hbm : b ∈ co.blocks f) (h : BadBlock co info (Risky co info) b) :
    Risky co info f := by
  rcases h with h | ⟨e, he, g, hd, hw⟩
  · exact .block hbm h
  · exact .call hbm he hd hw

/-- Everything a function executes has the right shape. -/
theorem full_pre (hb : BuiltFull fl skip co bf plan) {f : Func} (hf : f ∈ co.funcs)
    (hok : FullOk co info bf f) (hst : ¬ staysOf bf f) {ok : Edge → Prop}
    (hcl : ∀ b ∈ co.blocks f, ∀ e ∈ co.targets b, ok e → e.trg ∈ co.blocks f)
    (hex : ∀ b ∈ co.exitBlocks f, isNonreturningCall (co.targets b) = false →
      ∀ e ∈ co.targets b, ¬ ok e)
    {es : List Edge} {b' : Blk} (hw : Walk co.targets ok (co.entry f) es b') :
    RightShape co info (Risky co info) f b' ((plan f).trace (co.entry f) es) := by
  have hfo := hb.func f hf
  have hin := walk_blocks hcl hw hfo.wf.entry
  by_cases hr : (bf f).region = ".text"
  · rw [hb.plan_eq hf (by simpa [staysOf] using hst) hr]
    change Pre _ _ _ _ (pointTrace _ _ _ _)
    unfold pointTrace
    rw [show [co.entry f].count (co.entry f) = 1 by simp]
    refine point_mid (fun b => ?_) hex (fun b h1 h2 => exit_noCall hfo h1 h2) hw _
    rw [filter_count hfo.nodup]
    simp
  · rw [hb.left f hf (.inr hr)]
    have := pre_blocks (bad := BadBlock co info (Risky co info))
      (noCall := fun b => ∀ e ∈ co.targets b, e.type ≠ .call)
      (fin := b' ∈ co.exitBlocks f ∧ isNonreturningCall (co.targets b') = false) (o := none) (r := [])
      (bs := visits (co.entry f) es) (fun b hbm hbad =>
        hst (hok.outside hr (risky_bad (hin b hbm) hbad))) trivial
    rwa [List.append_nil] at this

theorem full_blocks (hb : BuiltFull fl skip co bf plan) {f : Func} (hf : f ∈ co.funcs) {ok : Edge → Prop}
    (hcl : ∀ b ∈ co.blocks f, ∀ e ∈ co.targets b, ok e → e.trg ∈ co.blocks f)
    {es : List Edge} {b' : Blk} (hw : Walk co.targets ok (co.entry f) es b') {x : Blk}
    (h : .block x ∈ (plan f).trace (co.entry f) es) : x ∈ co.blocks f := by
  have hin := walk_blocks hcl hw (hb.func f hf).wf.entry
  by_cases hl : (bf f).noReturn = true ∨ (bf f).region ≠ ".text"
  · rw [hb.left f hf hl] at h
    obtain ⟨y, hy, e⟩ := List.mem_map.mp h
    cases e
    exact hin x hy
  · rw [hb.plan_eq hf (by simpa using fun h' => hl (.inl h'))
      (Classical.byContradiction fun h' => hl (.inr h'))] at h
    exact hin x (point_blocks _ _ _ _ _ h)

/-- The conditions of `Sound.protected`. -/
theorem full_sound_on (hb : BuiltFull fl skip co bf plan) (hok : ∀ f ∈ co.funcs, FullOk co info bf f)
    {ok : Edge → Prop}
    (hcl : ∀ f ∈ co.funcs, ∀ b ∈ co.blocks f, ∀ e ∈ co.targets b, ok e → e.trg ∈ co.blocks f)
    (hex : ∀ f ∈ co.funcs, ∀ b ∈ co.exitBlocks f, isNonreturningCall (co.targets b) = false →
      ∀ e ∈ co.targets b, ¬ ok e) :
    Sound (semOn ok co plan info (fun _ => False) (staysOf bf)) (Risky co info) :=
  shape_sound hb.func (fun _ _ _ hbm h => risky_bad hbm h) (fun f hf => (hok f hf).known)
    (fun f hf b hbx e he g hg hj =>
      ⟨.jump hbx he hj, fun hs => (hok f hf).jumps hs b hbx e he g hg hj⟩)
    (fun f hf hs => hb.left f hf (.inl hs)) (fun _ _ h => h.elim)
    (fun f hf _ _ hw _ hx => full_blocks hb hf (hcl f hf) hw hx)
    fun f hf hs _ _ hw => full_pre hb hf (hok f hf) hs (hcl f hf) (hex f hf) hw

theorem full_sound (hb : BuiltFull fl skip co bf plan) (hok : ∀ f ∈ co.funcs, FullOk co info bf f) :
    Sound (semOf co info plan (fun _ => False) (staysOf bf)) (Risky co info) :=
  full_sound_on hb hok (fun f hf => (hb.func f hf).wf.closed)
    fun f hf b hbx _ => (hb.func f hf).exits b hbx

theorem full_sound_handlers (hb : BuiltFull fl skip co bf plan)
    (hok : ∀ f ∈ co.funcs, FullOk co info bf f) (hh : ∀ f ∈ co.funcs, HandlersOk co (bf f) f) :
    Sound (semOn Flow co plan info (fun _ => False) (staysOf bf)) (Risky co info) :=
  full_sound_on hb hok (fun f hf => (hh f hf).closed) fun f hf => (hh f hf).exits

/-! ## The snippets -/

variable {B : Binary} {jf : JitFlags} {frame : Func → Reg}

theorem scratch_none (fl : JitFlags) : ScratchOk fl [] none := ⟨nofun, fun _ _ h => absurd rfl h⟩

/-- **C89, the snippets.** The emitter returns code for every push and check of full mode; executed
where it was inserted it takes the return address from where the call stored it. -/
theorem C89_snippets (hB : FullBinaryOk B jf co) (hb : BuiltFull fl skip co bf plan) {f : Func}
    (hf : f ∈ co.funcs) {ps cs : List Blk} (hp : plan f = .full ps cs) :
    (∀ b ∈ ps, ∃ c, jitStackPush jf none false 0 false (co.start b) 0 = some c ∧
      ∀ s R, AtHeight R (B.hin f b) s → SnipFits False (frame f) c s R .push) ∧
    (∀ b ∈ cs, ∃ c, jitStackPop jf none false (co.start b) (co.last b) = some c ∧
      ∀ s R, AtHeight R (B.hout f b) s → SnipFits False (frame f) c s R .check) := by
  obtain ⟨rfl, rfl⟩ := hb.full_eq hf hp
  constructor
  · intro b hbm
    rw [List.mem_singleton.mp hbm]
    obtain ⟨c, hc, _⟩ := C01_push_records hB.normal none false false 0 (co.start (co.entry f)) 0 none rfl
      (scratch_none jf)
    refine ⟨c, hc, fun s R h => .push (d := 0) id
      ⟨jf, none, false, 0, false, co.start (co.entry f), 0, none, hB.normal, rfl, scratch_none jf, hc,
        rfl, rfl, rfl⟩ (belowSp_le _ _ _) ?_⟩
    rw [hB.entry f hf, atHeight_entry] at h
    unfold State.retAddr
    rw [h]
    bv_omega
  · intro b hbm
    obtain ⟨h1, h2⟩ := List.mem_filter.mp hbm
    obtain ⟨c, hc⟩ := check_emitted (sm := none) (useOrig := false) (blockStart := co.start b)
      (addr := co.last b) (mid := none) hB.normal rfl (scratch_none jf)
    refine ⟨c, hc, fun s R h => .check (d := 0) id
      ⟨jf, none, false, co.start b, co.last b, none, hB.normal, rfl, scratch_none jf, hc, rfl, rfl, rfl⟩
      (belowSp_le _ _ _) ?_⟩
    rw [hB.exit f hf b h1 (by simpa using h2), atHeight_entry] at h
    unfold State.retAddr
    rw [h]
    bv_omega

theorem full_fit (hB : FullBinaryOk B jf co) (hb : BuiltFull fl skip co bf plan) {f : Func}
    (hf : f ∈ co.funcs) {ev : Ev} {c : Code} {s : State} {r : W}
    (h : B.FullSnippet jf co plan f ev c s r) : SnipFits False (frame f) c s r ev := by
  cases ev with
  | block => exact h.elim
  | push =>
    obtain ⟨ps, cs, hp, b, hm, h1, h2⟩ := h
    obtain ⟨c', h3, h4⟩ := (C89_snippets (frame := frame) hB hb hf hp).1 b hm
    rw [h3] at h1
    cases h1
    exact h4 _ _ h2
  | check =>
    obtain ⟨ps, cs, hp, b, hm, h1, h2⟩ := h
    obtain ⟨c', h3, h4⟩ := (C89_snippets (frame := frame) hB hb hf hp).2 b hm
    rw [h3] at h1
    cases h1
    exact h4 _ _ h2

/-! ## The theorems -/

/-- **C89, what holds.** A program instrumented in full mode is protected, whatever function it starts
with, recursive or not, if jumps lead to known functions and functions outside `.text` are harmless or do
not return (`FullOk`).  Missing: other jumps and functions outside `.text`, for which it is false. -/
theorem C89_protected_partial (hb : BuiltFull fl skip co bf plan)
    (hok : ∀ f ∈ co.funcs, FullOk co info bf f) (f : Func) :
    Protected (semOf co info plan (fun _ => False) (staysOf bf)) f :=
  (full_sound hb hok).protected f

/-- **C89 with exceptions.** So it is if it throws and catches exceptions or uses `longjmp`, whatever its
handlers do.  Missing: as before. -/
theorem C89_exceptions_partial (hb : BuiltFull fl skip co bf plan)
    (hok : ∀ f ∈ co.funcs, FullOk co info bf f) (hh : ∀ f ∈ co.funcs, HandlersOk co (bf f) f) (f : Func) :
    UProtected (semOn Flow co plan info (fun _ => False) (staysOf bf)) f :=
  (full_sound_handlers hb hok hh).uprotected f

/-- **C89 on the machine.** So it is when the emitted code is executed on the shadow region.  Missing: as
before. -/
theorem C89_machine_partial (hB : FullBinaryOk B jf co) (hb : BuiltFull fl skip co bf plan)
    (hok : ∀ f ∈ co.funcs, FullOk co info bf f) (frame : Func → Reg) (g : W) (f : Func) :
    EProtected (semOf co info plan (fun _ => False) (staysOf bf)) frame (B.FullSnippet jf co plan) g f :=
  ((full_sound hb hok).machine f).planned fun _ _ _ _ _ _ ht h =>
    full_fit hB hb (And.left (b := ∃ _, _) ht) h

/-- **C89 with several threads**, and with exceptions, on the machine.  Missing: as before, and writing
to the stored return addresses of other threads. -/
theorem C89_threads_partial (hB : FullBinaryOk B jf co) (hb : BuiltFull fl skip co bf plan)
    (hok : ∀ f ∈ co.funcs, FullOk co info bf f) (hh : ∀ f ∈ co.funcs, HandlersOk co (bf f) f)
    (frame : Func → Reg) (g : Nat → W) :
    TeamProtected (semOn Flow co plan info (fun _ => False) (staysOf bf)) frame
      (B.FullSnippet jf co plan) Needs g :=
  (full_sound_handlers hb hok hh).team (fun _ _ _ _ _ _ ht h =>
    full_fit hB hb (And.left (b := ∃ _, _) ht) h) g

end

end Verif
