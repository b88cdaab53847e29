import Verif.Props.ByteCrews
import Verif.Props.ByteTeamExamples
import Verif.Props.SignalTeamExamples

/-! # C120: whole programs, and an execution -/

namespace Verif

section
variable {fl : InstrFlags} {skip : List Nat} {jf : JitFlags} {os : List BObject} {res : List (BFunc × Plan)}
  {d : BObject → ObjData} {x : BObject → MachineData} {who : Func → Part fl os × Func} {binds : List Char → Func → Prop}
  {l : BObject → List (BFunc × Plan)}

/-- **C120, a run of the tool.** Missing: as in `C102_run_partial`. -/
theorem C120_run_partial (hl : ∀ o ∈ os, DoneTo fl skip os res o (l o)) (ha : fl.asserts = true)
    (hs : ∀ o ∈ os, Considered fl o → SuitableMachine fl skip jf o (d o) (x o))
    (hb : ToolBinds d who binds) {H : Func → List Ev → Func → Prop}
    (hH : HandlersIn (toolSem fl os d l who binds) (toolUnsafe d who) H)
    {own : W → Prop} (hown : ∀ v, own v → ¬ GuardLike v) (depth : Nat) {g : Nat → W} {avx : Bool} {text : W → Byte}
    (hu : GangsUndefined (toolSnip jf d x l who) own g avx text) :
    GangsProtected ((toolSem fl os d l who binds).handling H) (toolFrame x who) (toolSnip jf d x l who) avx text
      own depth g :=
  C120_bytes hu (C102_run_partial hl ha hs hb hH hown depth g)

end

/-- **C120, `main`.** If the tool's `main` returns 0, the program consisting of all code objects of the binary
which the tool considers is protected, with threads, exceptions and signals, when it executes the bytes which the
tool has inserted, wherever Dyninst has put them, on every processor without AVX-512.  Missing: as in
`C102_main_partial`. -/
theorem C120_main_partial {h : Host} {fl : ToolFlags} {binary : String} {rest : List String}
    {res : List (BFunc × Plan)} {st : Stats} {w : Option String} {os : List BObject}
    {d : BObject → ObjData} {x : BObject → MachineData} {who : Func → Part fl.instr os × Func}
    {binds : List Char → Func → Prop} (e : toolMain h fl (binary :: rest) = .zero res st w)
    (hob : h.opens binary = some os) (ha : fl.instr.asserts = true)
    (hs : ∀ o ∈ os, Considered fl.instr o →
      SuitableMachine fl.instr (skipsOf h fl.skipList) fl.jit o (d o) (x o)) (hb : ToolBinds d who binds) :
    ∃ l : BObject → List (BFunc × Plan),
      (∀ o ∈ os, DoneTo fl.instr (skipsOf h fl.skipList) os res o (l o)) ∧
      ∀ H, HandlersIn (toolSem fl.instr os d l who binds) (toolUnsafe d who) H →
        ∀ own : W → Prop, (∀ v, own v → ¬ GuardLike v) → ∀ depth text g,
          GangsProtected ((toolSem fl.instr os d l who binds).handling H) (toolFrame x who)
            (toolSnip fl.jit d x l who) false text own depth g := by
  obtain ⟨l, hl, h1⟩ := C102_main_partial e hob ha hs hb
  exact ⟨l, hl, fun H hH own hown depth text g => C120_bytes ⟨nofun, nofun⟩ (h1 H hH own hown depth g)⟩

/-- Example for `C120_main_partial`. -/
example (frame : Func → Reg) : ∃ res st w, toolMain twoHost { instr := libFlags } ["/bin/prog"] = .zero res st w ∧
    ∃ l : BObject → List (BFunc × Plan), ∀ depth text g,
      GangsProtected ((toolSem libFlags twoObjects twoData l twoWho twoBinds).handling twoHandler)
        (toolFrame (twoMachine frame) twoWho) (toolSnip {} twoData (twoMachine frame) l twoWho) false text
        (· = 0x402000) depth g := by
  obtain ⟨res, st, h⟩ := twoHost_run
  obtain ⟨l, h1, h2⟩ := C120_main_partial (fl := { instr := libFlags }) (os := twoObjects) (d := twoData)
    (x := twoMachine frame) (who := twoWho) (binds := twoBinds) h (by simp [twoHost]) rfl
    (fun o ho _ => two_suitableMachine frame o ho) two_bind
  exact ⟨res, st, _, h, l, fun depth text g =>
    h2 _ (two_handlersIn l) _ (by rintro v rfl; decide +kernel) depth text g⟩

/-! ## The places where signals are restricted -/

/-- **C120, the places.** In the bytes of a snippet without labels, as those of pushes are, handlers are asked to
leave the shadow region alone exactly where they are with lists of instructions. -/
theorem C120_poised {avx : Bool} {text : W → Byte} {b x : W} {n : Nat} {w k : Code} (hk : RipAt avx text b n x w k)
    (hl : ∀ l, .bind l ∉ w) : Poised text b n x ↔ BeforePointer k := by
  refine ⟨fun ⟨hin, hb⟩ => ?_, hk.poised⟩
  obtain ⟨_, _, hw, _, a', n', _, pos, h0, hn, rfl, _, hp⟩ := hk
  cases h0
  have nol : ∀ l, .bind l ∉ k := fun l h => hl l (hw.subset h)
  have at_ : ∀ p q : Nat, b + BitVec.ofNat 64 (p + q) = b + BitVec.ofNat 64 p + BitVec.ofNat 64 q := fun p q => by
    rw [BitVec.ofNat_add, BitVec.add_assoc]
  cases hb with
  | lea h1 =>
    cases hp with
    | nil => exact absurd hin (inside_end hn)
    | plain h2 _ _ _ => cases h1.symm.trans h2; rfl
    | bind => exact absurd (List.mem_cons_self ..) (nol _)
    | je h2 => cases h1.symm.trans h2
    | jne h2 => cases h1.symm.trans h2
    | jmp h2 => cases h1.symm.trans h2
    | illegal h2 => cases h1.symm.trans h2
  | pop h1 h3 =>
    cases hp with
    | nil => exact absurd hin (inside_end hn)
    | plain h2 _ _ h4 =>
      cases h1.symm.trans h2
      rw [← at_] at h3
      cases h4 with
      | nil => trivial
      | plain h5 _ _ _ => cases h3.symm.trans h5; trivial
      | bind => exact absurd (List.mem_cons_of_mem _ (List.mem_cons_self ..)) (nol _)
      | je h2 => cases h3.symm.trans h2
      | jne h2 => cases h3.symm.trans h2
      | jmp h2 => cases h3.symm.trans h2
      | illegal h2 => cases h3.symm.trans h2
    | bind => exact absurd (List.mem_cons_self ..) (nol _)
    | je h2 => cases h1.symm.trans h2
    | jne h2 => cases h1.symm.trans h2
    | jmp h2 => cases h1.symm.trans h2
    | illegal h2 => cases h1.symm.trans h2
  | last h1 h3 =>
    cases hp with
    | nil => exact absurd hin (inside_end hn)
    | plain h2 h6 _ h4 =>
      cases h1.symm.trans h2
      have hlt := h4.le
      rw [← at_] at h3
      have := congrArg (fun z => (z - b).toNat) h3
      simp only [BitVec.add_comm b, BitVec.add_sub_cancel, BitVec.toNat_ofNat] at this
      rw [Nat.mod_eq_of_lt (by omega), Nat.mod_eq_of_lt hn] at this
      cases h4 with
      | nil => trivial
      | plain _ h7 _ h5 => have := h5.le; omega
      | bind => exact absurd (List.mem_cons_of_mem _ (List.mem_cons_self ..)) (nol _)
      | je _ _ _ h5 => have := h5.le; omega
      | jne _ _ _ h5 => have := h5.le; omega
      | jmp _ _ _ h5 => have := h5.le; omega
      | illegal _ _ h5 => have := h5.le; omega
    | bind => exact absurd (List.mem_cons_self ..) (nol _)
    | je h2 => cases h1.symm.trans h2
    | jne h2 => cases h1.symm.trans h2
    | jmp h2 => cases h1.symm.trans h2
    | illegal h2 => cases h1.symm.trans h2

section
variable {fl : JitFlags} {t t' : Temps} {c : Code} {l : Label}

theorem save_noLabels {r : Option Reg} (h : save t r = some (c, t')) : .bind l ∉ c := by
  cases r with
  | none => cases h
  | some r => cases h; simp

theorem useSpecified_noLabels {mid : MoveInst} {height : Int} (h : useSpecified mid height = some (c, t')) : .bind l ∉ c := by
  have key : ∀ {t : Temps} {d : Code}, (∀ l, .bind l ∉ d) → ((if t.saved2 then save t t.tmp2 else some ([], t)).bind
      fun x => some (d ++ x.1, x.2)) = some (c, t') → .bind l ∉ c := by
    intro t d hd h
    obtain ⟨⟨c2, t2⟩, h2, e⟩ := Option.bind_eq_some_iff.1 h
    cases e
    have k2 : .bind l ∉ c2 := by
      split at h2
      · exact save_noLabels h2
      · cases h2; simp
    simp [hd, k2]
  have h : ((if (Temps.ofMove mid height).saved1 then save (Temps.ofMove mid height) (Temps.ofMove mid height).tmp1
      else some ([], Temps.ofMove mid height)).bind fun y => ((if y.2.saved2 then save y.2 y.2.tmp2 else some ([], y.2)).bind
      fun x => some (y.1 ++ x.1, x.2))) = some (c, t') := by
    rw [← h]
    simp only [useSpecified, Option.bind_eq_bind, Option.pure_def]
    split <;> (try (congr; funext y; split <;> rfl)) <;> rfl
  obtain ⟨⟨c1, t1⟩, h1, h2⟩ := Option.bind_eq_some_iff.1 h
  refine key (fun l => ?_) h2
  split at h1
  · exact save_noLabels h1
  · cases h1; simp

theorem skip1_noLabels {name : String} (h : saveOrSkip1 t name = some (c, t')) : .bind l ∉ c := by
  simp only [saveOrSkip1] at h
  split at h
  · cases h; simp
  · exact save_noLabels h

theorem skip2_noLabels {name : String} (h : saveOrSkip2 t name = some (c, t')) : .bind l ∉ c := by
  simp only [saveOrSkip2] at h
  split at h
  · cases h; simp
  · exact save_noLabels h

theorem skip3_noLabels {name : String} (h : saveOrSkip3 t name = some (c, t')) : .bind l ∉ c := by
  simp only [saveOrSkip3] at h
  split at h
  · cases h; simp
  · exact save_noLabels h

theorem saveTemps_noLabels {dead exclude : List String} {height : Int}
    (h : saveTemps fl dead exclude height = some (c, t')) : .bind l ∉ c := by
  simp only [saveTemps] at h
  split at h
  · simp only [Option.bind_eq_bind, Option.bind_eq_some_iff, Option.pure_def, Option.some.injEq,
      Prod.exists, Prod.mk.injEq] at h
    obtain ⟨c1, t1, h1, c2, t2, h2, rfl, _⟩ := h
    simp [save_noLabels h1, save_noLabels h2]
  · simp only [Option.bind_eq_bind, Option.bind_eq_some_iff, Option.pure_def, Option.some.injEq,
      Prod.exists, Prod.mk.injEq] at h
    obtain ⟨n1, _, c1, t1, h1, n2, _, c2, t2, h2, n3, _, c3, t3, h3, rfl, _⟩ := h
    simp [skip1_noLabels h1, skip2_noLabels h2, skip3_noLabels h3]

theorem restoreTemps_noLabels (h : restoreTemps t = some c) : .bind l ∉ c := by
  simp only [restoreTemps, Option.bind_eq_bind, Option.pure_def] at h
  split at h <;> obtain ⟨c2, h2, h⟩ := Option.bind_eq_some_iff.1 h <;>
    split at h <;> obtain ⟨c1, h1, h⟩ := Option.bind_eq_some_iff.1 h <;> cases h
  all_goals
    cases e1 : t.tmp1 <;> simp only [e1, Option.map_none, Option.map_some, Option.some.injEq, reduceCtorEq] at h1 <;>
    cases e2 : t.tmp2 <;> simp only [e2, Option.map_none, Option.map_some, Option.some.injEq, reduceCtorEq] at h2 <;>
    subst h1 <;> subst h2 <;> simp

theorem saveBody_noLabels (h : body fl saveRa saveRaAndFrame t = some c) : .bind l ∉ c := by
  simp only [body, Option.bind_eq_bind, Option.bind_eq_some_iff, Option.pure_def] at h
  obtain ⟨sp, _, ra, _, h⟩ := h
  split at h
  · split at h <;> cases h <;> simp [saveRa, saveRaAndFrame]
  · cases h; simp

/-- Pushes contain no labels. -/
theorem push_noLabels {s : Option JitSummary} {useOrig useFixed : Bool} {height : Int} {blockStart trgStart : Nat}
    (h : jitStackPush fl s useOrig height useFixed blockStart trgStart = some c) : .bind l ∉ c := by
  simp only [jitStackPush] at h
  split at h
  · cases h; simp
  simp only [Option.bind_eq_bind, Option.bind_eq_some_iff] at h
  obtain ⟨mid, _, h⟩ := h
  simp only [stackPushWith] at h
  split at h
  · cases h; simp
  simp only [Option.bind_eq_bind, Option.bind_eq_some_iff, Option.pure_def, Option.some.injEq, Prod.exists] at h
  obtain ⟨c1, t, h1, c2, h2, c3, h3, rfl⟩ := h
  have k1 : .bind l ∉ c1 := by
    simp only [pushTemps] at h1
    split at h1
    · exact useSpecified_noLabels h1
    · exact saveTemps_noLabels h1
    · exact saveTemps_noLabels h1
  simp [k1, saveBody_noLabels h2, restoreTemps_noLabels h3]

end

/-- **C120, pushes.** -/
theorem C120_push_places {avx : Bool} {text : W → Byte} {b x : W} {n : Nat} {fl : JitFlags} {s : Option JitSummary}
    {useOrig useFixed : Bool} {height : Int} {blockStart trgStart : Nat} {w k : Code}
    (hw : jitStackPush fl s useOrig height useFixed blockStart trgStart = some w)
    (hk : RipAt avx text b n x w k) : Poised text b n x ↔ BeforePointer k :=
  C120_poised hk fun _ => push_noLabels hw

/-- Example: in the bytes of the push of `tryProg`, the places are the `lea` and the store behind it. -/
example : Poised tryText 0x500000 38 (0x500000 + 21) ∧ ¬ Poised tryText 0x500000 38 0x500000 := by
  refine ⟨⟨⟨21, by decide, rfl⟩, ?_⟩, ?_⟩
  · exact .lea (r := .r10) (b := .r10) (n := 4) (by decide +kernel)
  · have h0 : decode (window tryText 0x500000) = some (.plain (.push .r10), 2) := by decide +kernel
    rintro ⟨_, h⟩
    cases h with
    | lea h => rw [h0] at h; cases h
    | pop h => rw [h0] at h; cases h
    | last h => rw [h0] at h; cases h

/-! ## An execution -/

def gangPair (a b : Gang) : Nat → Option Gang := setAt (setAt (fun _ => none) 0 (some a)) 1 (some b)

theorem gangPair_one (a b : Gang) : gangPair a b 0 = some a := rfl
theorem gangPair_two (a b : Gang) : gangPair a b 1 = some b := rfl

theorem gangPair_set_one (a b c : Gang) : setAt (gangPair a b) 0 (some c) = gangPair c b := by
  funext j
  by_cases h : j = 1
  · simp [gangPair, setAt, h]
  · by_cases h' : j = 0 <;> simp [gangPair, setAt, h, h']

theorem gangPair_set_two (a b c : Gang) : setAt (gangPair a b) 1 (some c) = gangPair a c := by
  funext j
  by_cases h : j = 1 <;> simp [gangPair, setAt, h]

theorem gangOthers_one {a b : Gang} {mem mem' : Mem}
    (h : ∀ x, InRange x (twoRegions 1) regionSize ∨ b.keeps x → mem' x = mem x) :
    Gang.Others twoRegions (gangPair a b) 0 mem mem' := by
  intro j w hj hw x hx
  by_cases h' : j = 1
  · subst h'
    rw [gangPair_two] at hw
    cases hw
    exact h x hx
  · simp [gangPair, setAt, hj, h'] at hw

theorem gangOthers_two {a b : Gang} {mem mem' : Mem}
    (h : ∀ x, InRange x (twoRegions 0) regionSize ∨ a.keeps x → mem' x = mem x) :
    Gang.Others twoRegions (gangPair a b) 1 mem mem' := by
  intro j w hj hw x hx
  by_cases h' : j = 0
  · subst h'
    rw [gangPair_one] at hw
    cases hw
    exact h x hx
  · simp [gangPair, setAt, hj, h'] at hw

theorem task_keeps {a : XAct} {b y : W} {n : Nat} {ev : Ev} {s0 s : State} {p q : W} (ha : a.at_ = p)
    (hs : s0.regs .rsp - BitVec.ofNat 64 16 = q) {x : W}
    (h : Gang.keeps ⟨.busy b n y ev s0 s a [], []⟩ x) : InRange x p 8 ∨ InRange x q 16 := by
  rcases h with (⟨b, hb, h⟩ | h) | ⟨_, hb, _⟩
  · rw [List.mem_singleton.mp hb, ha] at h; exact .inl h
  · rw [hs] at h; exact .inr h
  · cases hb

/-- The first instruction of the push. -/
theorem try_decode : decode (window tryText 0x500000) = some (.plain (.push .r10), 2) := by decide +kernel
theorem try_execute (avx : Bool) (s : State) :
    executeAt avx tryText 0x500000 s = .next 0x500002 (s.pushW (s.regs .r10)) := by
  simp only [executeAt, try_decode]
  rfl

theorem try_inserted : Inserted tryText tryPush 0x500000 38 := ⟨tryBytes, try_bytes, try_stands, try_length, by decide⟩

/-- Steps of a process of the program with exceptions, whose handlers are called from 0x403000. -/
abbrev tryGangs (frame : Func → Reg) (avx : Bool) : GangsProc → GangsProc → Prop :=
  GangsStep (tryProg.excSem.handling noHandler) frame tryProg.snip avx tryText (· = 0x403000) 2 twoRegions

/-- Example for `C120_bytes`: both threads are in the middle of the bytes of pushes, of which they have executed
one instruction each, and the first thread is also in the middle of the push of a handler which has interrupted
it there. -/
theorem C120_example (frame : Func → Reg) (avx : Bool) :
    GangsProtected (tryProg.excSem.handling noHandler) frame tryProg.snip false tryText (· = 0x403000) 2 twoRegions ∧
    ∃ mem s s' s0 s0' j t ps, Trail (tryGangs frame avx) (.run twoMem fun _ => none)
      (.run mem (gangPair ⟨.busy 0x500000 38 0x500002 .push s0 s ⟨2, [], 0x401000, 0x7000⟩ [],
          [.busy j 0x500000 38 0x500002 t]⟩
        ⟨.busy 0x500000 38 0x500002 .push s0' s' ⟨2, [], 0x402000, 0x9000⟩ [], []⟩) :: ps) := by
  refine ⟨C120_bytes ⟨nofun, nofun⟩ (tryProg_crews frame), ?_⟩
  have e1 : oneState.mem.read64 0x7000 = 0x401000 := by decide
  have e2 : otherState.mem.read64 0x9000 = 0x402000 := by decide
  have i1 : Inside 0x500000 38 0x500000 := ⟨0, by decide, rfl⟩
  have i2 : Inside 0x500000 38 0x500002 := ⟨2, by decide, rfl⟩
  have nl : ¬ LoadsPointer tryText 0x500000 := by
    rintro ⟨r, n, h⟩
    rw [try_decode] at h
    cases h
  have r1 := Trail.step (step := tryGangs frame avx) (.start (p := .run twoMem fun _ => none))
    (.spawn (i := 0) (s := oneState) 2 0x7000 rfl one_recorded (fun _ _ _ h => by cases h))
  have r2 := r1.step (.spawn (i := 1) (s := otherState) 2 0x9000 (by simp [setAt]) other_recorded
    fun _ _ _ _ _ _ => rfl)
  rw [e1, e2] at r2
  change Trail _ _ (GangsProc.run twoMem (gangPair ⟨.own oneState _, []⟩ ⟨.own otherState _, []⟩) :: _) at r2
  have r3 := r2.step (.step (i := 0) (gangPair_one _ _) (.begin tryProg_pushes (tryPush_snip (by decide))
    try_inserted (one_clear (by decide))) (fun _ _ _ _ _ _ => rfl))
  rw [gangPair_set_one] at r3
  have r4 := r3.step (.step (i := 1) (gangPair_two _ _) (.begin tryProg_pushes (tryPush_snip (by decide))
    try_inserted (other_clear (by decide))) (fun _ _ _ _ _ _ => rfl))
  rw [gangPair_set_two] at r4
  -- both threads execute an instruction
  have r5 := r4.step (.step (i := 0) (gangPair_one _ _)
    (.instr (fun _ h => absurd h nl) i1 (try_execute avx _) (.inl i2))
    (gangOthers_one fun x hx => by
      rcases hx with hx | hx
      · exact write_away hx (sep_of_le (by decide) (by decide) (by decide))
      · rcases task_keeps (p := 0x9000) (q := 0x8ff0) rfl (by decide) hx with hx | hx <;>
          exact write_away hx (sep_of_le (by decide) (by decide) (by decide))))
  rw [gangPair_set_one] at r5
  have r6 := r5.step (.step (i := 1) (gangPair_two _ _)
    (.instr (fun _ h => absurd h nl) i1 (try_execute avx _) (.inl i2))
    (gangOthers_two fun x hx => by
      rcases hx with hx | hx
      · exact write_away hx (sep_of_le (by decide) (by decide) (by decide))
      · rcases task_keeps (p := 0x7000) (q := 0x6ff0) rfl (by decide) hx with hx | hx <;>
          exact write_away hx ((sep_of_le (by decide) (by decide) (by decide)).symm)))
  rw [gangPair_set_two] at r6
  -- the signal, and the push of the handler
  have r7 := r6.step (.step (i := 0) (gangPair_one _ _) (.signal (s1 := tryEntered (tryOne.over tryTwo.mem)) (by decide) nofun
    ⟨rfl, fun x hx => write_away hx (sep_of_le (by decide) (by decide) (by decide))⟩
    ⟨fun x hx => by
      rcases task_keeps (p := 0x7000) (q := 0x6ff0) rfl (by decide) hx with hx | hx <;>
        exact write_away hx (sep_of_le (by decide) (by decide) (by decide)),
      fun _ x hx => write_away hx (sep_of_le (by decide) (by decide) (by decide))⟩)
    (gangOthers_one fun x hx => by
      rcases hx with hx | hx
      · exact write_away hx (sep_of_le (by decide) (by decide) (by decide))
      · rcases task_keeps (p := 0x9000) (q := 0x8ff0) rfl (by decide) hx with hx | hx <;>
          exact write_away hx (sep_of_le (by decide) (by decide) (by decide))))
  rw [gangPair_set_one] at r7
  obtain ⟨_, _, _, _, hj⟩ := tryJob frame (s := tryEntered (tryOne.over tryTwo.mem)) (by decide) (by decide)
  have r8 := r7.step (.step (i := 0) (gangPair_one _ _) (.beginH hj rfl try_inserted)
    (fun _ _ _ _ _ _ => rfl))
  rw [gangPair_set_one] at r8
  have r9 := r8.step (.step (i := 0) (gangPair_one _ _)
    (.instrH (fun _ h => absurd h nl) i1 (try_execute avx _) (.inl i2)
    ⟨fun x hx => by
      rcases task_keeps (p := 0x7000) (q := 0x6ff0) rfl (by decide) hx with hx | hx <;>
        exact write_away hx (sep_of_le (by decide) (by decide) (by decide)),
      fun _ x hx => write_away hx (sep_of_le (by decide) (by decide) (by decide))⟩)
    (gangOthers_one fun x hx => by
      rcases hx with hx | hx
      · exact write_away hx (sep_of_le (by decide) (by decide) (by decide))
      · rcases task_keeps (p := 0x9000) (q := 0x8ff0) rfl (by decide) hx with hx | hx <;>
          exact write_away hx (sep_of_le (by decide) (by decide) (by decide))))
  rw [gangPair_set_one] at r9
  exact ⟨_, _, _, _, _, _, _, _, r9⟩

end Verif
