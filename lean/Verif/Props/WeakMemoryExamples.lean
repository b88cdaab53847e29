import Verif.Props.WeakMemory
import Verif.Props.ByteCrewsExamples
import Verif.Props.SignalTeamRun

/-! # C121: whole programs, the memory of x86, and an execution -/

namespace Verif

/-- **C92 on processors with several cores.** Missing: as in `C92_crews_partial`. -/
theorem C92_weak_partial {fl : InstrFlags} {skip : List Nat} {jf : JitFlags} {ι : Type} {obj : ι → Obj}
    {wr : ι → Func → Prop} {who : Func → ι × Func} {binds : List Char → Func → Prop}
    {frame : ι → Func → Reg} {snip : ι → Func → Ev → Code → State → W → Prop}
    (h : ∀ i, TreatedMachine fl skip jf (obj i) (wr i) (frame i) (snip i))
    (hb : BindOk (fun i => (obj i).code) (fun i => (obj i).stays) wr who binds)
    {H : Func → List Ev → Func → Prop}
    (hH : HandlersIn (semAll Flow obj who binds) (fun f => wr (who f).1 (who f).2) H)
    {own : W → Prop} (hown : ∀ v, own v → ¬ GuardLike v) (M : Caches) (depth : Nat) {g : Nat → W} {avx : Bool}
    {text : W → Byte} (hu : GangsUndefined (fun f => snip (who f).1 (who f).2) own g avx text) :
    WeakProtected ((semAll Flow obj who binds).handling H) (fun f => frame (who f).1 (who f).2)
      (fun f => snip (who f).1 (who f).2) avx text M own depth g :=
  ((all_sound (fun i => (h i).sound) hb).handling hH).weak
    (fun f _ _ _ _ _ ht hs => (h (who f).1).fits ht hs) hown hu M depth

section
variable {fl : InstrFlags} {skip : List Nat} {jf : JitFlags} {os : List BObject} {res : List (BFunc × Plan)}
  {d : BObject → ObjData} {x : BObject → MachineData} {who : Func → Part fl os × Func} {binds : List Char → Func → Prop}
  {l : BObject → List (BFunc × Plan)}

/-- **C121, a run of the tool.** Missing: as in `C102_run_partial`. -/
theorem C121_run_partial (hl : ∀ o ∈ os, DoneTo fl skip os res o (l o)) (ha : fl.asserts = true)
    (hs : ∀ o ∈ os, Considered fl o → SuitableMachine fl skip jf o (d o) (x o))
    (hb : ToolBinds d who binds) {H : Func → List Ev → Func → Prop}
    (hH : HandlersIn (toolSem fl os d l who binds) (toolUnsafe d who) H)
    {own : W → Prop} (hown : ∀ v, own v → ¬ GuardLike v) (M : Caches) (depth : Nat) {g : Nat → W} {avx : Bool}
    {text : W → Byte} (hu : GangsUndefined (toolSnip jf d x l who) own g avx text) :
    WeakProtected ((toolSem fl os d l who binds).handling H) (toolFrame x who) (toolSnip jf d x l who) avx text
      M own depth g :=
  C92_weak_partial (ι := Part fl os) (obj := fun o => objOf fl o.1 (d o.1) (l o.1))
    (wr := fun o => unsafeIn fl o.1 (d o.1)) (frame := fun o => (x o.1).frame)
    (snip := fun o => snipOf fl jf o.1 (d o.1) (x o.1) (l o.1))
    (fun o => run_treatedMachine (hl _ o.2.1) ha o.2.2 (hs _ o.2.1 o.2.2)) hb hH hown M depth hu

end

/-- **C121, `main`.** If the tool's `main` returns 0, the program consisting of all code objects of the binary
which the tool considers is protected, with threads, exceptions and signals, when it executes the bytes which the
tool has inserted, wherever Dyninst has put them, on every processor without AVX-512, and in particular if writes
wait in store buffers.  Missing: as in `C102_main_partial`. -/
theorem C121_main_partial {h : Host} {fl : ToolFlags} {binary : String} {rest : List String}
    {res : List (BFunc × Plan)} {st : Stats} {w : Option String} {os : List BObject}
    {d : BObject → ObjData} {x : BObject → MachineData} {who : Func → Part fl.instr os × Func}
    {binds : List Char → Func → Prop} (e : toolMain h fl (binary :: rest) = .zero res st w)
    (hob : h.opens binary = some os) (ha : fl.instr.asserts = true)
    (hs : ∀ o ∈ os, Considered fl.instr o →
      SuitableMachine fl.instr (skipsOf h fl.skipList) fl.jit o (d o) (x o)) (hb : ToolBinds d who binds) :
    ∃ l : BObject → List (BFunc × Plan),
      (∀ o ∈ os, DoneTo fl.instr (skipsOf h fl.skipList) os res o (l o)) ∧
      ∀ H, HandlersIn (toolSem fl.instr os d l who binds) (toolUnsafe d who) H →
        ∀ own : W → Prop, (∀ v, own v → ¬ GuardLike v) → ∀ M depth text g,
          WeakProtected ((toolSem fl.instr os d l who binds).handling H) (toolFrame x who)
            (toolSnip fl.jit d x l who) false text M own depth g := by
  obtain ⟨l, hl, _⟩ := C102_main_partial e hob ha hs hb
  exact ⟨l, hl, fun H hH own hown M depth text g => C121_run_partial hl ha hs hb hH hown M depth ⟨nofun, nofun⟩⟩

/-- Example for `C121_main_partial`. -/
example (frame : Func → Reg) : ∃ res st w, toolMain twoHost { instr := libFlags } ["/bin/prog"] = .zero res st w ∧
    ∃ l : BObject → List (BFunc × Plan), ∀ depth text g,
      WeakProtected ((toolSem libFlags twoObjects twoData l twoWho twoBinds).handling twoHandler)
        (toolFrame (twoMachine frame) twoWho) (toolSnip {} twoData (twoMachine frame) l twoWho) false text
        .x86 (· = 0x402000) depth g := by
  obtain ⟨res, st, h⟩ := twoHost_run
  obtain ⟨l, h1, h2⟩ := C121_main_partial (fl := { instr := libFlags }) (os := twoObjects) (d := twoData)
    (x := twoMachine frame) (who := twoWho) (binds := twoBinds) h (by simp [twoHost]) rfl
    (fun o ho _ => two_suitableMachine frame o ho) two_bind
  exact ⟨res, st, _, h, l, fun depth text g =>
    h2 _ (two_handlersIn l) _ (by rintro v rfl; decide +kernel) _ depth text g⟩

/-! ## One memory -/

section
variable {m : ProgSem} {frame : Func → Reg} {snip : Func → Ev → Code → State → W → Prop} {avx : Bool}
  {text : W → Byte} {own : W → Prop} {depth : Nat} {g : Nat → W}

/-- The same process. -/
def GangsProc.direct : GangsProc → WeakProc .direct
  | .run mem T => .run mem T
  | .stopped i q => .stopped i q
  | .strayed i => .strayed i

/-- **C121, one memory.** The processes of `ByteCrews` are those whose threads see every write at once. -/
theorem C121_direct {p q : GangsProc} : GangsStep m frame snip avx text own depth g p q ↔
    WeakStep m frame snip avx text .direct own depth g p.direct q.direct := by
  constructor
  · intro h
    cases h with
    | step h1 h2 h3 => exact .step h1 h2 trivial h3
    | stop h1 h2 => exact .stop h1 h2
    | stray h1 h2 => exact .stray h1 h2
    | spawn f p h1 h2 h3 => exact .spawn (s := _) f p h1 rfl h2 trivial h3
    | exit h1 => exact .exit h1
  · intro h
    cases p with
    | run mem T =>
      cases q with
      | run mem' T' =>
        generalize e : GangsProc.direct (.run mem' T') = r at h
        cases h with
        | step h1 h2 _ h3 => cases e; exact .step h1 h2 h3
        | pass h => exact h.elim
        | stop => cases e
        | stray => cases e
        | spawn f p h1 h2 h3 _ h4 => cases e; cases h2; exact .spawn f p h1 h3 h4
        | exit h1 => cases e; exact .exit h1
      | stopped i q => cases h with | stop h1 h2 => exact .stop h1 h2
      | strayed i => cases h with | stray h1 h2 => exact .stray h1 h2
    | stopped i q => cases h
    | strayed i => cases h

/-! ## The memory of x86 -/

theorem afterWrites_append (mem : Mem) (ws ws' : List (W × Byte)) :
    afterWrites mem (ws ++ ws') = afterWrites (afterWrites mem ws) ws' := by
  induction ws generalizing mem with
  | nil => rfl
  | cons w ws ih => exact ih _

theorem afterWrites_same {mem mem' : Mem} {y : W} (h : mem' y = mem y) (ws : List (W × Byte)) :
    afterWrites mem' ws y = afterWrites mem ws y := by
  induction ws generalizing mem mem' with
  | nil => exact h
  | cons w ws ih =>
    refine ih ?_
    by_cases hy : y = w.1 <;> simp [hy, h]

theorem afterWrites_away {mem : Mem} {y : W} {ws : List (W × Byte)} (h : ∀ w ∈ ws, w.1 ≠ y) :
    afterWrites mem ws y = mem y := by
  induction ws generalizing mem with
  | nil => rfl
  | cons w ws ih =>
    refine (ih fun u hu => h u (List.mem_cons_of_mem _ hu)).trans ?_
    rw [if_neg fun e => h w (List.mem_cons_self ..) e.symm]

/-- **C121, writes.** On x86, what a thread writes looks the same to the others until it is passed on, wherever it
writes. -/
theorem C121_x86_writes {T : Nat → Option Gang} {i : Nat} {a b : Buffered} (h : Caches.x86.writes i a b) :
    Caches.x86.Spares g T i a b := by
  obtain ⟨h1, h2, _⟩ := h
  intro j c hj _ x _
  change afterWrites b.mem (b.waiting j) x = afterWrites a.mem (a.waiting j) x
  rw [h1, h2 j hj]

/-- Each thread relies on bytes in its area only, and none of the bytes that wait is in the area of a thread other
than that which wrote it. -/
structure Tidy (g : Nat → W) (A : Nat → W → Prop) (a : Buffered) (T : Nat → Option Gang) : Prop where
  relies : ∀ j c, T j = some c → ∀ x, InRange x (g j) regionSize ∨ c.keeps x → A j x
  waiting : ∀ i j, i ≠ j → ∀ w ∈ a.waiting i, ¬ A j w.1

/-- **C121, areas.** On x86, nothing is asked of the moment at which a write is passed on, if no thread has written
to the area of another one. -/
theorem C121_x86_passes {A : Nat → W → Prop} {T : Nat → Option Gang} {i : Nat} {a b : Buffered} (ht : Tidy g A a T)
    (h : Caches.x86.passes i a b) : Caches.x86.Spares g T i a b := by
  obtain ⟨x, v, h1, h2, h3⟩ := h
  intro j c hj hc y hy
  change afterWrites b.mem (b.waiting j) y = afterWrites a.mem (a.waiting j) y
  rw [h2 j hj, h3]
  refine afterWrites_same ?_ _
  have := ht.waiting i j (fun e => hj e.symm) (x, v) (by rw [h1]; exact List.mem_cons_self ..)
  rw [if_neg]
  rintro rfl
  exact this (ht.relies j c hc _ hy)

/-- What is passed on leaves areas tidy. -/
theorem Tidy.passes {A : Nat → W → Prop} {T : Nat → Option Gang} {i : Nat} {a b : Buffered} (ht : Tidy g A a T)
    (h : Caches.x86.passes i a b) : Tidy g A b T := by
  obtain ⟨x, v, h1, h2, h3⟩ := h
  refine ⟨ht.relies, fun k j hk w hw => ?_⟩
  by_cases e : k = i
  · subst e
    exact ht.waiting k j hk w (by rw [h1]; exact List.mem_cons_of_mem _ hw)
  · rw [h2 k e] at hw
    exact ht.waiting k j hk w hw

end

/-! ## An execution -/

/-- The bytes of a write of eight bytes. -/
def eightWrites (p v : W) (n : Nat) : List (W × Byte) :=
  (List.range n).map fun k => (p + BitVec.ofNat 64 k, v.extractLsb' (8 * k) 8)

theorem eightWrites_after (mem : Mem) (p v x : W) (n : Nat) (hn : n ≤ 8) : afterWrites mem (eightWrites p v n) x =
    if (x - p).toNat < n then v.extractLsb' (8 * (x - p).toNat) 8 else mem x := by
  induction n with
  | zero => simp [eightWrites, afterWrites]
  | succ n ih =>
    have : eightWrites p v (n + 1) = eightWrites p v n ++ [(p + BitVec.ofNat 64 n, v.extractLsb' (8 * n) 8)] := by
      simp [eightWrites, List.range_succ]
    rw [this, afterWrites_append]
    simp only [afterWrites]
    by_cases hx : x = p + BitVec.ofNat 64 n
    · subst hx
      have : (p + BitVec.ofNat 64 n - p).toNat = n := by
        rw [BitVec.add_comm, BitVec.add_sub_cancel, BitVec.toNat_ofNat]
        omega
      rw [if_pos rfl, this, if_pos (by omega)]
    · rw [if_neg hx, ih (by omega)]
      have : (x - p).toNat ≠ n := by
        intro e
        apply hx
        rw [← e, BitVec.ofNat_toNat, BitVec.setWidth_eq, BitVec.add_comm p, BitVec.sub_add_cancel]
      by_cases h1 : (x - p).toNat < n
      · rw [if_pos h1, if_pos (by omega)]
      · rw [if_neg h1, if_neg (by omega)]

theorem eightWrites_write (mem : Mem) (p v : W) : afterWrites mem (eightWrites p v 8) = mem.write64 p v := by
  funext x
  exact eightWrites_after mem p v x 8 (Nat.le_refl _)

/-- A thread writes these bytes. -/
def Buffered.add (a : Buffered) (i : Nat) (ws : List (W × Byte)) : Buffered :=
  ⟨a.mem, fun j => if j = i then a.waiting i ++ ws else a.waiting j⟩

theorem Buffered.add_sees (a : Buffered) (i : Nat) (ws : List (W × Byte)) :
    Caches.x86.sees (a.add i ws) i = afterWrites (Caches.x86.sees a i) ws := by
  change afterWrites a.mem (if i = i then a.waiting i ++ ws else a.waiting i) = afterWrites (afterWrites a.mem (a.waiting i)) ws
  rw [if_pos rfl, afterWrites_append]

theorem Buffered.add_other (a : Buffered) {i j : Nat} (h : j ≠ i) (ws : List (W × Byte)) :
    Caches.x86.sees (a.add i ws) j = Caches.x86.sees a j := by
  change afterWrites a.mem (if j = i then a.waiting i ++ ws else a.waiting j) = afterWrites a.mem (a.waiting j)
  rw [if_neg h]

section
variable {m : ProgSem} {frame : Func → Reg} {snip : Func → Ev → Code → State → W → Prop} {avx : Bool}
  {text : W → Byte} {own : W → Prop} {depth : Nat} {g : Nat → W}

theorem x86_step {a : Buffered} {T : Nat → Option Gang} {i : Nat} {c c' : Gang} {mem' : Mem} (hi : T i = some c)
    (h : GangStep m frame snip avx text own depth (g i) (Caches.x86.sees a i) c mem' c') {ws : List (W × Byte)}
    (hw : afterWrites (Caches.x86.sees a i) ws = mem') :
    WeakStep m frame snip avx text .x86 own depth g (.run a T) (.run (a.add i ws) (setAt T i (some c'))) := by
  have hw' : Caches.x86.writes i a (a.add i ws) := ⟨rfl, fun j hj => if_neg hj, ws, if_pos rfl⟩
  refine .step hi ?_ hw' (C121_x86_writes hw')
  rw [Buffered.add_sees, hw]
  exact h

end

/-- Steps of a process of the program with exceptions on x86, whose handlers are called from 0x403000. -/
abbrev tryWeak (frame : Func → Reg) (avx : Bool) : WeakProc .x86 → WeakProc .x86 → Prop :=
  WeakStep (tryProg.excSem.handling noHandler) frame tryProg.snip avx tryText .x86 (· = 0x403000) 2 twoRegions

theorem tryProg_weak (frame : Func → Reg) (M : Caches) :
    WeakProtected (tryProg.excSem.handling noHandler) frame tryProg.snip false tryText M (· = 0x403000) 2 twoRegions := by
  have hu : GangsUndefined tryProg.snip (· = 0x403000) twoRegions false tryText := ⟨nofun, nofun⟩
  exact C121_weak_partial (tryProg.binaryOk rfl frame) tryProg_ok.built
    (tryProg_ok.built.covered (tryProg_ok.noRecursion (by decide +kernel))) tryProg_calls tryProg_tails
    (Small.allIn rfl rfl rfl) tryProg_ok.handlers
    tryProg_cleanup nofun (by rintro _ rfl; decide +kernel) hu M 2

/-- Example for `C121_weak_partial`: both threads are in the middle of the bytes of pushes, of which they have
executed one instruction each.  Seven bytes of what the first has written have not got to memory, and none of what
the second has. -/
theorem C121_example (frame : Func → Reg) (avx : Bool) :
    WeakProtected (tryProg.excSem.handling noHandler) frame tryProg.snip false tryText .x86 (· = 0x403000) 2 twoRegions ∧
    ∃ a s s' s0 s0' ps, (a.waiting 0).length = 7 ∧ (a.waiting 1).length = 8 ∧ a.mem 0x6ff8 = 5 ∧
      a.mem 0x8ff8 ≠ Caches.x86.sees a 1 0x8ff8 ∧
      Trail (tryWeak frame avx) (.run ⟨twoMem, fun _ => []⟩ fun _ => none)
      (.run a (gangPair ⟨.busy 0x500000 38 0x500002 .push s0 s ⟨2, [], 0x401000, 0x7000⟩ [], []⟩
        ⟨.busy 0x500000 38 0x500002 .push s0' s' ⟨2, [], 0x402000, 0x9000⟩ [], []⟩) :: ps) := by
  refine ⟨tryProg_weak frame _, ?_⟩
  have e1 : oneState.mem.read64 0x7000 = 0x401000 := by decide
  have e2 : otherState.mem.read64 0x9000 = 0x402000 := by decide
  have i1 : Inside 0x500000 38 0x500000 := ⟨0, by decide, rfl⟩
  have i2 : Inside 0x500000 38 0x500002 := ⟨2, by decide, rfl⟩
  have nl : ¬ LoadsPointer tryText 0x500000 := by
    rintro ⟨r, n, h⟩
    rw [try_decode] at h
    cases h
  have none_ : ∀ i, Caches.x86.writes i ⟨twoMem, fun _ => []⟩ ⟨twoMem, fun _ => []⟩ :=
    fun i => ⟨rfl, fun _ _ => rfl, [], rfl⟩
  have r1 := Trail.step (step := tryWeak frame avx) (.start (p := .run ⟨twoMem, fun _ => []⟩ fun _ => none))
    (.spawn (i := 0) (s := oneState) 2 0x7000 rfl rfl one_recorded (none_ 0) (fun _ _ _ h => by cases h))
  have r2 := r1.step (.spawn (i := 1) (s := otherState) 2 0x9000 (by simp [setAt]) rfl other_recorded (none_ 1)
    fun _ _ _ _ _ _ => rfl)
  rw [e1, e2] at r2
  change Trail _ _ (WeakProc.run _ (gangPair ⟨.own oneState _, []⟩ ⟨.own otherState _, []⟩) :: _) at r2
  have r3 := r2.step (x86_step (i := 0) (ws := []) (gangPair_one _ _) (.begin tryProg_pushes (tryPush_snip (by decide))
    try_inserted (one_clear (by decide))) rfl)
  rw [gangPair_set_one] at r3
  have r4 := r3.step (x86_step (i := 1) (ws := []) (gangPair_two _ _) (.begin tryProg_pushes (tryPush_snip (by decide))
    try_inserted (other_clear (by decide))) rfl)
  rw [gangPair_set_two] at r4
  -- both threads execute an instruction
  have r5 := r4.step (x86_step (i := 0) (ws := eightWrites 0x6ff8 5 8) (gangPair_one _ _)
    (.instr (fun _ h => absurd h nl) i1 (try_execute avx _) (.inl i2)) (eightWrites_write _ _ _))
  rw [gangPair_set_one] at r5
  have r6 := r5.step (x86_step (i := 1) (ws := eightWrites 0x8ff8 7 8) (gangPair_two _ _)
    (.instr (fun _ h => absurd h nl) i1 (try_execute avx _) (.inl i2)) (eightWrites_write _ _ _))
  rw [gangPair_set_two] at r6
  -- the first byte gets to memory
  have r7 := r6.step (.pass (i := 0) (b := Buffered.mk (fun y => if y = 0x6ff8 then 5 else twoMem y)
      (fun j => if j = 0 then (eightWrites 0x6ff8 5 8).tail else if j = 1 then eightWrites 0x8ff8 7 8 else []))
    (show Caches.x86.passes 0 _ _ from ⟨0x6ff8, 5, rfl, fun j hj => ?_, rfl⟩) fun j w hj hw x hx => ?_)
  · exact ⟨_, _, _, _, _, _, rfl, rfl, rfl, by decide, r7⟩
  · by_cases h1 : j = 1 <;> simp [Buffered.add, hj, h1]
  · by_cases h1 : j = 1
    · subst h1
      rw [gangPair_two] at hw
      cases hw
      refine afterWrites_same ?_ (eightWrites 0x8ff8 7 8)
      refine if_neg ?_
      rintro rfl
      rcases hx with hx | hx
      · exact absurd hx (by simp only [InRange]; decide)
      · rcases task_keeps (p := 0x9000) (q := 0x8ff0) rfl (by decide) hx with hx | hx <;> exact absurd hx (by simp only [InRange]; decide)
    · simp [gangPair, setAt, hj, h1] at hw

end Verif
