import Verif.Props.RedZonePush
import Verif.Props.Local

/-!
C65: pushes and checks placed inside a lowered function use its return address.

Heights are Dyninst's: at the first instruction of a function the height is -8, so at height `h`
the word with the return address lies `h + 8` below the stack pointer.
-/

namespace Verif

/-- The stack pointer is at height `h` in a call whose return address is stored at `R`. -/
def AtHeight (R : W) (h : Int) (st : State) : Prop := st.regs .rsp = R + BitVec.ofInt 64 (h + 8)

theorem atHeight_entry {R : W} {st : State} : AtHeight R (-8) st ↔ st.regs .rsp = R := by
  unfold AtHeight
  have : BitVec.ofInt 64 (-8 + 8) = 0#64 := by decide
  rw [this, BitVec.add_zero]

/-! ## What the stack height pass records -/

theorem lookup_mapSet {β : Type} (k k' : Nat) (v : β) (m : List (Nat × β)) :
    (mapSet m k v).lookup k' = if k' = k then some v else m.lookup k' := by
  unfold mapSet
  rw [List.lookup_cons]
  by_cases h : k' = k
  · rw [if_pos h, h]; simp
  · rw [if_neg h]
    have : (k' == k) = false := by simpa using h
    rw [this]
    simp only
    induction m with
    | nil => rfl
    | cons p m ih =>
      obtain ⟨a, b⟩ := p
      rw [List.filter_cons]
      by_cases ha : a = k
      · subst ha
        simp only [ne_eq, not_true_eq_false, decide_false, Bool.false_eq_true, if_false]
        rw [ih, List.lookup_cons, this]
      · rw [if_pos (by simpa using ha), List.lookup_cons, List.lookup_cons, ih]

theorem shInsns_heights (b : Blk) (l : List StackInsn) (s : FuncSummary) :
    (l.foldl (shInsn b) s).blockEndSPHeight = s.blockEndSPHeight ∧
    (l.foldl (shInsn b) s).blockEntrySPHeight = s.blockEntrySPHeight :=
  (foldl_post b (shInsn b) DangerousInsn (fun s i => shInsn_post b s i) l s).heights

/-- The tables after the blocks `bs`. -/
theorem shBlocks_heights (co : CodeObj) (info : StackInfo) :
    ∀ (bs : List Blk) (s : FuncSummary) (x : Nat),
      (∀ b, b ∈ bs → ∀ c, c ∈ bs → co.start b = co.start c → b = c) →
      ((bs.foldl (shBlock co info) s).blockEndSPHeight.lookup x =
        match bs.find? (fun b => co.start b = x) with
        | some b => (match info.heightEnd b with
          | some h => some (-8 - h)
          | none => s.blockEndSPHeight.lookup x)
        | none => s.blockEndSPHeight.lookup x) ∧
      ((bs.foldl (shBlock co info) s).blockEntrySPHeight.lookup x =
        match bs.find? (fun b => co.start b = x) with
        | some b => (match info.heightStart b with
          | some h => some (-8 - h)
          | none => s.blockEntrySPHeight.lookup x)
        | none => s.blockEntrySPHeight.lookup x) := by
  intro bs
  induction bs with
  | nil => intro s x _; exact ⟨rfl, rfl⟩
  | cons b bs ih =>
    intro s x hinj
    have hone : (shBlock co info s b).blockEndSPHeight.lookup x =
          (if co.start b = x then (match info.heightEnd b with
            | some h => some (-8 - h)
            | none => s.blockEndSPHeight.lookup x) else s.blockEndSPHeight.lookup x) ∧
        (shBlock co info s b).blockEntrySPHeight.lookup x =
          (if co.start b = x then (match info.heightStart b with
            | some h => some (-8 - h)
            | none => s.blockEntrySPHeight.lookup x) else s.blockEntrySPHeight.lookup x) := by
      unfold shBlock
      rw [(shInsns_heights _ _ _).1, (shInsns_heights _ _ _).2]
      unfold shHeights
      by_cases hx : co.start b = x
      · subst hx
        cases info.heightEnd b <;> cases info.heightStart b <;> simp [lookup_mapSet]
      · have hx' : ¬ x = co.start b := fun h => hx h.symm
        cases info.heightEnd b <;> cases info.heightStart b <;> simp [lookup_mapSet, hx, hx']
    obtain ⟨i1, i2⟩ := ih (shBlock co info s b) x (fun c hc d hd => hinj c (List.mem_cons_of_mem _ hc)
      d (List.mem_cons_of_mem _ hd))
    rw [List.foldl_cons, i1, i2, hone.1, hone.2, List.find?_cons]
    by_cases hx : co.start b = x
    · simp only [hx, if_true, decide_true]
      cases hf : bs.find? (fun b => decide (co.start b = x)) with
      | none => exact ⟨rfl, rfl⟩
      | some c =>
        have hc := List.mem_of_find?_eq_some hf
        have hcx : co.start c = x := by simpa using List.find?_some hf
        have : b = c := hinj b List.mem_cons_self c (List.mem_cons_of_mem _ hc) (hx.trans hcx.symm)
        subst this
        simp only
        constructor
        · cases info.heightEnd b <;> rfl
        · cases info.heightStart b <;> rfl
    · simp only [hx, if_false]
      exact ⟨rfl, rfl⟩

/-- The recorded number is the distance from the stack pointer to the return address. -/
theorem atHeight_slot {R : W} {h : Int} {st : State} (ha : AtHeight R h st) :
    st.regs .rsp + BitVec.ofInt 64 (-8 - h) = R := by
  rw [ha, BitVec.add_assoc, ← BitVec.ofInt_add]
  have : h + 8 + (-8 - h) = 0 := by omega
  rw [this]; simp

/-- C65.  The pass records exactly what Dyninst finds at the beginning and the end of each
block. -/
theorem C65_heights (co : CodeObj) (info : StackInfo) (f : Func) (s : FuncSummary)
    (ha : s.assumeUnsafe = false)
    (h0 : s.blockEndSPHeight = [] ∧ s.blockEntrySPHeight = [])
    (hinj : ∀ b, b ∈ co.blocks f → ∀ c, c ∈ co.blocks f → co.start b = co.start c → b = c)
    {b : Blk} (hb : b ∈ co.blocks f) :
    (stackHeight co info f s).blockEndSPHeight.lookup (co.start b) =
      (info.heightEnd b).map (fun h => -8 - h) ∧
    (stackHeight co info f s).blockEntrySPHeight.lookup (co.start b) =
      (info.heightStart b).map (fun h => -8 - h) := by
  obtain ⟨h1, h2⟩ := shBlocks_heights co info (co.blocks f) s (co.start b) hinj
  unfold stackHeight
  rw [ha]
  simp only [Bool.false_eq_true, if_false]
  rw [h1, h2]
  cases hf : (co.blocks f).find? (fun c => decide (co.start c = co.start b)) with
  | none =>
    have := List.find?_eq_none.1 hf b hb
    simp at this
  | some c =>
    have hc := List.mem_of_find?_eq_some hf
    have hcx : co.start c = co.start b := by simpa using List.find?_some hf
    have : c = b := hinj c hc b hb hcx
    subst this
    simp only [h0.1, h0.2]
    constructor
    · cases info.heightEnd c <;> rfl
    · cases info.heightStart c <;> rfl

/-! ## What the pushes record -/

/-- Running the code records the word at `R`: either on the shadow stack, or in the register
`reg` whose old value is kept in the scratch word. -/
inductive RecordsAt (c : Code) (reg : Reg) (R : W) (st : State) : Prop
  | stack (st' : State) : Exits c st st' → st'.mem.read64 st.shadow = st.mem.read64 R →
      st'.shadow = st.shadow + 8 → RecordsAt c reg R st
  | reg (st' : State) : Exits c st st' → st'.regs reg = st.mem.read64 R →
      st'.mem.read64 (st.gs + 8) = st.regs reg → RecordsAt c reg R st

/-- The areas which a push touches do not overlap: the shadow slot and the shadow pointer word,
at most 16 bytes below `rsp`, and the return address. -/
structure Room (R : W) (st : State) : Prop where
  slot_gs : Sep st.shadow 8 st.gs 8
  ret_scratch : Sep R 8 (st.gs + 8) 8
  ret_save : ∀ n, n ≤ 16 → Sep R 8 (st.regs .rsp - BitVec.ofNat 64 n) n
  slot_save : ∀ n, n ≤ 16 → Sep st.shadow 8 (st.regs .rsp - BitVec.ofNat 64 n) n
  gs_save : ∀ n, n ≤ 16 → Sep st.gs 8 (st.regs .rsp - BitVec.ofNat 64 n) n

theorem belowSp_le (fl : JitFlags) (dead : List String) (mid : Option MoveInst) :
    belowSp fl dead mid ≤ 16 := by
  unfold belowSp; split <;> split <;> omega

/-- Scratch registers can be chosen: without a moved point the names in the dead set are in
order (C09). -/
def NamesOk (jf : JitFlags) (dead : List String) : Prop :=
  jf.optimizeRegs = true → dead ≠ [] → 4 ≤ dead.length ∧ dead.Nodup ∧ ∀ n, n ∈ dead → KnownName n

/-- ... at the entry and at every exit. -/
structure DeadOk (jf : JitFlags) (dead : DeadNames) : Prop where
  entry : NamesOk jf dead.entry
  exit : ∀ a d, dead.exit a = some d → NamesOk jf d

/-- A check which is not moved. -/
theorem DeadOk.atExit {jf : JitFlags} {dead : DeadNames} (h : DeadOk jf dead) {s : FuncSummary} {addr : Nat} :
    ScratchOk jf (deadExit (some (s.jit dead)) addr) none := by
  refine ⟨by simp, fun _ => ?_⟩
  simp only [deadExit, FuncSummary.jit]
  cases hd : dead.exit addr with
  | none => exact fun _ h => absurd rfl h
  | some d => exact h.exit addr d hd

theorem stackPush_records {jf : JitFlags} (hf : Normal jf) {js : JitSummary} {o x : Bool} {ht : Int}
    {b trg : Nat} {mid : Option MoveInst} (reg : Reg)
    (hm : pushMove (some js) o x b trg = some mid)
    (hok : ScratchOk jf js.deadAtEntry mid) :
    ∃ c, jitStackPush jf (some js) o ht x b trg = some c ∧ ∀ (R : W) (st : State), Room R st →
      st.regs .rsp + BitVec.ofInt 64 (popDisp mid + ht) = R →
      RecordsAt c reg R st := by
  obtain ⟨c, hc, hx⟩ := C01_push_records hf (some js) o x ht b trg mid hm hok
  refine ⟨c, hc, fun R st hr hR => ?_⟩
  have hd : pushDisp (some js) mid ht = popDisp mid + ht := by
    unfold pushDisp popDisp; cases mid <;> simp
  have hR' : st.regs .rsp + BitVec.ofInt 64 (pushDisp (some js) mid ht) = R := by rw [hd]; exact hR
  obtain ⟨st', h1, h2, h3, _⟩ := hx st (by
    rw [hR']
    exact ⟨hr.slot_gs, hr.ret_save _ (belowSp_le _ _ _), hr.slot_save _ (belowSp_le _ _ _),
      hr.gs_save _ (belowSp_le _ _ _)⟩)
  rw [hR'] at h2
  exact .stack st' h1 h2 h3

theorem regPush_records {jf : JitFlags} (hf : Normal jf) {js : JitSummary} {reg : Reg}
    (hc : RegChoice js reg) (ht : Int) :
    ∃ c, jitRegisterPush jf js ht = some c ∧ ∀ (R : W) (st : State), Room R st →
      st.regs .rsp + BitVec.ofInt 64 ht = R → RecordsAt c reg R st := by
  obtain ⟨c, h1, h2⟩ := regPush_exits hf hc ht
  refine ⟨c, h1, fun R st hr hR => ?_⟩
  have := h2 st (by rw [hR]; exact hr.ret_scratch)
  rw [hR] at this
  refine .reg _ this ?_ ?_
  · simp [State.set]
  · show Mem.read64 (Mem.write64 _ _ _) _ = _
    exact read64_write64 _ _ _

theorem entryFixed_offset {l : List BInsn} {mid : MoveInst} (h : entryFixed l = some mid) :
    mid.raOffset = 0 := by
  unfold entryFixed at h
  split at h
  · cases h
  · simp only at h
    split at h
    · cases h
      unfold Scan.data Scan.improve
      simp only
      split <;> rfl
    · cases h

/-- C65.  The push on an edge records the return address, if Dyninst's height at the end of the
source is right. -/
theorem C65_edge_push {fl : InstrFlags} {co : CodeObj} {f : Func} {info : StackInfo}
    {s : FuncSummary} {L : Lowered} {code : Blk → List BInsn}
    (h : doLowering fl co f (some s) = some (some L)) (hs : FromScan co f code s)
    (hH : ∀ b, b ∈ co.blocks f →
      s.blockEndSPHeight.lookup (co.start b) = (info.heightEnd b).map (fun h => -8 - h))
    {e : Edge} {k : PushKind} (he : (e, k) ∈ L.edgePush) (hsrc : e.src ∈ co.blocks f)
    (htrg : e.trg ∈ co.blocks f) {dead : DeadNames} {jf : JitFlags} (hf : Normal jf)
    (hd : DeadOk jf dead) {reg : Reg} (hreg : s.unusedRegs ≠ [] → RegChoice (s.jit dead) reg) :
    ∃ c ht, k.code jf (s.jit dead) (co.start e.src) (co.start e.trg) = some c ∧
      info.heightEnd e.src = some ht ∧
      ∀ (R : W) (st : State), AtHeight R ht st → Room R st → RecordsAt c reg R st := by
  have hp := (low_pushes h).1 _ he
  unfold edgePushOf at hp
  rw [hH _ hsrc] at hp
  cases hh : info.heightEnd e.src with
  | none => rw [hh] at hp; cases hp
  | some ht =>
    rw [hh] at hp
    simp only [Option.map_some, bind, Option.bind] at hp
    by_cases hu : (s.shouldUseRegisterFrame && !fl.disableRegFrame) = true
    · rw [if_pos hu] at hp
      have hk : k = .reg (-8 - ht) := by injection hp with hp; injection hp with _ hp; exact hp.symm
      subst hk
      have hne : s.unusedRegs ≠ [] := by
        intro h0
        have : s.shouldUseRegisterFrame = true := (Bool.and_eq_true _ _ ▸ hu).1
        unfold FuncSummary.shouldUseRegisterFrame at this
        rw [h0] at this
        simp at this
      obtain ⟨c, h1, h2⟩ := regPush_records hf (hreg hne) (-8 - ht)
      exact ⟨c, ht, h1, rfl, fun R st ha hr => h2 R st hr (atHeight_slot ha)⟩
    · rw [if_neg hu] at hp
      generalize hmid : (if fl.disableRegSaveOpt = true then none
        else s.entryFixedData.lookup (co.start e.trg)) = mid at hp
      cases mid with
      | none =>
        have hk : k = .stack false (-8 - ht) false := by
          injection hp with hp; injection hp with _ hp; exact hp.symm
        subst hk
        obtain ⟨c, h1, h2⟩ := stackPush_records hf (js := s.jit dead) (o := false) (x := false)
          (ht := -8 - ht) (b := co.start e.src) (trg := co.start e.trg) (mid := none) reg rfl
          ⟨by simp, fun _ => hd.entry⟩
        exact ⟨c, ht, h1, rfl, fun R st ha hr => h2 R st hr (by
          simp only [popDisp, Int.zero_add]; exact atHeight_slot ha)⟩
      | some m =>
        have hk : k = .stack false (-8 - ht) true := by
          injection hp with hp; injection hp with _ hp; exact hp.symm
        subst hk
        split at hmid
        · cases hmid
        have hm : entryFixed (code e.trg) = some m := by rw [← hs.fixed _ htrg]; exact hmid
        obtain ⟨c, h1, h2⟩ := stackPush_records hf (js := s.jit dead) (o := false) (x := true)
          (ht := -8 - ht) (b := co.start e.src) (trg := co.start e.trg) (mid := some m) reg
          (by simp [pushMove, FuncSummary.jit, hmid]) (scratchOk_of_scan (fixed_scan hm).1)
        exact ⟨c, ht, h1, rfl, fun R st ha hr => h2 R st hr (by
          simp only [popDisp, entryFixed_offset hm, Int.zero_add]; exact atHeight_slot ha)⟩

/-- C65.  The push in a block records the return address, at the beginning of the block or at
the instruction to which it was moved, if Dyninst's height at the beginning is right. -/
theorem C65_block_push_partial {fl : InstrFlags} {co : CodeObj} {f : Func} {info : StackInfo}
    {s : FuncSummary} {L : Lowered} {code : Blk → List (BInsn × Sem)}
    (h : doLowering fl co f (some s) = some (some L))
    (hs : FromScan co f (fun b => (code b).map Prod.fst) s)
    (hH : ∀ b, b ∈ co.blocks f →
      s.blockEntrySPHeight.lookup (co.start b) = (info.heightStart b).map (fun h => -8 - h))
    {n : PNode} {k : PushKind} {a : Option Nat} (he : (n, k, a) ∈ L.blockPush)
    (hn : n.1 ∈ co.blocks f) (hplain : ∀ p, p ∈ code n.1 → PlainBefore p)
    (hlen : 8 * (code n.1).length + 8 ≤ 2 ^ 64) {dead : DeadNames} {jf : JitFlags}
    (hf : Normal jf) (hd : DeadOk jf dead) {reg : Reg}
    (hreg : s.unusedRegs ≠ [] → RegChoice (s.jit dead) reg) (trg : Nat) :
    ∃ c ht pre post, k.code jf (s.jit dead) (co.start n.1) trg = some c ∧
      info.heightStart n.1 = some ht ∧ code n.1 = pre ++ post ∧
      (a = none → pre = []) ∧ (∀ x, a = some x → (post.head?.map fun p => p.1.addr) = some x) ∧
      ∀ (R : W) (st : State), AtHeight R ht st → Room R (runSem pre st) →
        RecordsAt c reg R (runSem pre st) := by
  have hp := (low_pushes h).2 _ he
  unfold blockPushOf at hp
  rw [hH _ hn] at hp
  cases hh : info.heightStart n.1 with
  | none => rw [hh] at hp; cases hp
  | some ht =>
    rw [hh] at hp
    simp only [Option.map_some, bind, Option.bind] at hp
    by_cases hu : (s.shouldUseRegisterFrame && !fl.disableRegFrame) = true
    · rw [if_pos hu] at hp
      have hk : k = .reg (-8 - ht) ∧ a = none := by
        injection hp with hp; injection hp with _ hp; injection hp with h1 h2
        exact ⟨h1.symm, h2.symm⟩
      obtain ⟨rfl, rfl⟩ := hk
      have hne : s.unusedRegs ≠ [] := by
        intro h0
        have : s.shouldUseRegisterFrame = true := (Bool.and_eq_true _ _ ▸ hu).1
        unfold FuncSummary.shouldUseRegisterFrame at this
        rw [h0] at this
        simp at this
      obtain ⟨c, h1, h2⟩ := regPush_records hf (hreg hne) (-8 - ht)
      exact ⟨c, ht, [], code n.1, h1, rfl, rfl, fun _ => rfl, fun x hx => (nomatch hx),
        fun R st ha hr => h2 R st hr (atHeight_slot ha)⟩
    · rw [if_neg hu] at hp
      generalize hmid : (if fl.disableRegSaveOpt = true then none
        else s.entryData.lookup (co.start n.1)) = mid at hp
      cases mid with
      | none =>
        have hk : k = .stack false (-8 - ht) false ∧ a = none := by
          injection hp with hp; injection hp with _ hp; injection hp with h1 h2
          exact ⟨h1.symm, h2.symm⟩
        obtain ⟨rfl, rfl⟩ := hk
        obtain ⟨c, h1, h2⟩ := stackPush_records hf (js := s.jit dead) (o := false) (x := false)
          (ht := -8 - ht) (b := co.start n.1) (trg := trg) (mid := none) reg rfl
          ⟨by simp, fun _ => hd.entry⟩
        exact ⟨c, ht, [], code n.1, h1, rfl, rfl, fun _ => rfl, fun x hx => (nomatch hx),
          fun R st ha hr => h2 R st hr (by simp only [popDisp, Int.zero_add]; exact atHeight_slot ha)⟩
      | some m =>
        have hk : k = .stack true (-8 - ht) false ∧ a = some m.newAddr := by
          injection hp with hp; injection hp with _ hp; injection hp with h1 h2
          exact ⟨h1.symm, h2.symm⟩
        obtain ⟨rfl, rfl⟩ := hk
        split at hmid
        · cases hmid
        have hm : entryData ((code n.1).map Prod.fst) = some m := by
          rw [← hs.entry _ hn]; exact hmid
        obtain ⟨_, i, rest, _, _, _, _, hsc⟩ := C26_entry_position _ _ hm
        obtain ⟨c, h1, h2⟩ := stackPush_records hf (js := s.jit dead) (o := true) (x := false)
          (ht := -8 - ht) (b := co.start n.1) (trg := trg) (mid := some m) reg
          (by simp [pushMove, FuncSummary.jit, hmid]) (scratchOk_of_scan hsc)
        obtain ⟨pre, p, post, e1, e2, e3⟩ := C26_entry_return_address_partial _ _ hm hplain hlen
        refine ⟨c, ht, pre, p :: post, h1, rfl, e1, fun hx => (nomatch hx), fun x hx => ?_,
          fun R st ha hr => h2 R _ hr ?_⟩
        · injection hx with hx; rw [← hx, ← e2]; rfl
        · simp only [popDisp]
          rw [BitVec.ofInt_add, ← BitVec.add_assoc, (e3 st).1]
          exact atHeight_slot ha

/-! ## What the checks compare -/

/-- The code emitted for a check in the block starting at `b`, at the address `addr`
(`/repo/src/instrument.cc:86-116`). -/
def PopKind.code (jf : JitFlags) (js : JitSummary) (k : PopKind) (b addr : Nat) : Option Code :=
  match k with
  | .reg => jitRegisterPop jf js
  | .stack useOrig => jitStackPop jf (some js) useOrig b addr

theorem popOf_fst {fl : InstrFlags} {co : CodeObj} {s : FuncSummary} {u : Bool} {b : Blk}
    {p : Blk × PopKind × Option Nat} (h : popOf fl co s u b = some p) : p.1 = b := by
  unfold popOf at h
  split at h
  · cases h
  simp only at h
  split at h
  · cases h; rfl
  · split at h <;> cases h <;> rfl

theorem low_pops {fl : InstrFlags} {co : CodeObj} {f : Func} {s : FuncSummary} {L : Lowered}
    (h : doLowering fl co f (some s) = some (some L)) :
    ∀ p ∈ L.pops, popOf fl co s (s.shouldUseRegisterFrame && !fl.disableRegFrame) p.1 = some p := by
  simp only [doLowering] at h
  split at h
  · cases h
  split at h
  · cases h
  split at h
  · cases h
  cases hr : redirectEdges co.targets (stopAt co s) (((co.blocks f).flatMap co.targets).length + 1) {}
      (co.entry f) with
  | none => rw [hr] at h; cases h
  | some r =>
    rw [hr] at h
    simp only [bind, Option.bind] at h
    split at h
    · cases h
    split at h
    · cases h
    cases hL : lowerWith fl co f s r.redirect with
    | none => rw [hL] at h; cases h
    | some L' =>
      rw [hL] at h
      cases h
      unfold lowerWith at hL
      simp only [bind, Option.bind] at hL
      split at hL
      · cases hL
      dsimp only at hL
      split at hL
      · cases hL
      dsimp only at hL
      split at hL
      · cases hL
      dsimp only at hL
      split at hL
      · cases hL
      dsimp only at hL
      split at hL
      · cases hL
      cases hL
      intro p hp
      obtain ⟨b, _, hb⟩ := List.mem_filterMap.1 hp
      rw [popOf_fst hb]; exact hb

/-- Run from the place chosen for a moved check to the end of a block without returns. -/
theorem exit_offset {code : List (BInsn × Sem)} {mid : MoveInst}
    (h : exitData (code.map Prod.fst) = some mid) (hret : ∀ p ∈ code, p.1.op ≠ .ret)
    (hp : ∀ p ∈ code, PlainAfter p) :
    ∃ pre p rest, code = pre ++ p :: rest ∧ p.1.addr = mid.newAddr ∧
      ∀ s : State, (runSem (p :: rest) s).regs .rsp = s.regs .rsp + BitVec.ofInt 64 mid.raOffset ∧
        (runSem (p :: rest) s).mem = s.mem := by
  obtain ⟨pre, i, rest, h1, h2, h3, h4, h5, _⟩ := C27_exit_position _ _ h
  obtain ⟨pre', tail, e1, e2, e3⟩ := List.map_eq_append_iff.mp h1
  obtain ⟨p, rest', e4, e5, e6⟩ := List.map_eq_cons_iff.mp e3
  refine ⟨pre', p, rest', by rw [e1, e4], by rw [e5]; exact h2, fun s => ?_⟩
  have hmap : (p :: rest').map Prod.fst = i :: rest := by rw [List.map_cons, e5, e6]
  have hsub : ∀ q ∈ p :: rest', q ∈ code := fun q hq => by
    rw [e1, e4]; exact List.mem_append_right _ hq
  have hrun := run_after (p :: rest') (fun q hq => hp q (hsub q hq))
    (fun q hq => h4 q.1 (by rw [← hmap]; exact List.mem_map_of_mem hq))
    (fun q hq => hret q (hsub q hq)) s
  refine ⟨?_, hrun.2⟩
  rw [hrun.1, hmap, h3]
  have : BitVec.ofInt 64 (8 * (countOp .pop (i :: rest) : Int)) =
      BitVec.ofNat 64 (8 * countOp .pop (i :: rest)) := by
    rw [← BitVec.ofInt_natCast]; simp
  rw [this]

/-- The end of a block: a return if there is one. -/
def BlockEnd (code body : List (BInsn × Sem)) : Prop :=
  (∀ p ∈ body, p.1.op ≠ .ret) ∧ (code = body ∨ ∃ r, r.1.op = .ret ∧ code = body ++ [r])

theorem blockEnd_offset {code body : List (BInsn × Sem)} {mid : MoveInst} (hend : BlockEnd code body)
    (h : exitData (code.map Prod.fst) = some mid) (hp : ∀ p ∈ body, PlainAfter p) :
    ∃ pre p rest, body = pre ++ p :: rest ∧ p.1.addr = mid.newAddr ∧
      ∀ s : State, (runSem (p :: rest) s).regs .rsp = s.regs .rsp + BitVec.ofInt 64 mid.raOffset ∧
        (runSem (p :: rest) s).mem = s.mem := by
  obtain ⟨hb, rfl | ⟨r, hr, rfl⟩⟩ := hend
  · exact exit_offset h hb hp
  · exact C27_exit_return_address_partial body r mid h hr hb hp

/-- C65.  The check in a block, wherever it was placed, lets through no
address other than a recorded one (or the copy in the register, or 0): the address tested is
the one to which the stack pointer points at the end of the block, before the return if there
is one. -/
theorem C65_check_partial {fl : InstrFlags} {co : CodeObj} {f : Func} {s : FuncSummary}
    {L : Lowered} (h : doLowering fl co f (some s) = some (some L)) {b : Blk} {k : PopKind}
    {a : Option Nat} (hk : (b, k, a) ∈ L.pops) {code body : List (BInsn × Sem)}
    (hend : BlockEnd code body)
    (hx : s.exitData.lookup (co.start b) = exitData (code.map Prod.fst)) (hp : ∀ p ∈ body, PlainAfter p)
    {dead : DeadNames} {jf : JitFlags} (hf : Normal jf) (hd : DeadOk jf dead) {reg : Reg}
    (hreg : s.unusedRegs ≠ [] → RegChoice (s.jit dead) reg) (addr : Nat) :
    ∃ c pre post, k.code jf (s.jit dead) (co.start b) addr = some c ∧ body = pre ++ post ∧
      (a = none → post = []) ∧ (∀ x, a = some x → (post.head?.map fun p => p.1.addr) = some x) ∧
      ∀ (st : State) (l : List W), st.Holds l →
        let R := (runSem post st).regs .rsp
        let v := (runSem post st).mem.read64 R
        (∀ n, n ≤ 16 → CheckSep R n (l.length + 1) st) → (k = .reg → v ≠ st.regs reg) → v ≠ 0 →
        v ∉ l → Traps c st ∧ ∀ st', ¬ Exits c st st' := by
  have hq := low_pops h _ hk
  unfold popOf at hq
  simp only at hq
  split at hq
  · cases hq
  by_cases hu : (s.shouldUseRegisterFrame && !fl.disableRegFrame) = true
  · rw [if_pos hu] at hq
    have e : k = .reg ∧ a = none := by
      injection hq with hq; injection hq with _ hq; injection hq with h1 h2
      exact ⟨h1.symm, h2.symm⟩
    obtain ⟨rfl, rfl⟩ := e
    have hne : s.unusedRegs ≠ [] := by
      intro h0
      have : s.shouldUseRegisterFrame = true := (Bool.and_eq_true _ _ ▸ hu).1
      unfold FuncSummary.shouldUseRegisterFrame at this
      rw [h0] at this
      simp at this
    obtain ⟨c, h1, h2⟩ := C11_register_frame_detects hf (hreg hne)
    refine ⟨c, body, [], h1, by simp, fun _ => rfl, fun x hx => (nomatch hx), ?_⟩
    intro st l hl
    simp only [runSem]
    intro hsep h3 h4 h5
    exact h2 st l hl (hsep 16 (Nat.le_refl _)) (h3 trivial) h4 h5
  · rw [if_neg hu] at hq
    generalize hmid : (if fl.disableRegSaveOpt = true then none
      else s.exitData.lookup (co.start b)) = mid at hq
    cases mid with
    | none =>
      have e : k = .stack false ∧ a = none := by
        injection hq with hq; injection hq with _ hq; injection hq with h1 h2
        exact ⟨h1.symm, h2.symm⟩
      obtain ⟨rfl, rfl⟩ := e
      have hm : popMove (some (s.jit dead)) false (co.start b) = some none := rfl
      have hok : ScratchOk jf (deadExit (some (s.jit dead)) addr) none := hd.atExit
      obtain ⟨c, hc⟩ := check_emitted hf hm hok
      refine ⟨c, body, [], hc, by simp, fun _ => rfl, fun x hx => (nomatch hx), ?_⟩
      intro st l hl
      simp only [runSem]
      intro hsep _ h4 h5
      have e0 : st.regs .rsp + BitVec.ofInt 64 (popDisp none) = st.regs .rsp := by
        simp [popDisp]
      refine C04_check_traps hf hm hok hc hl ?_ ?_ ?_
      · unfold CheckReady; rw [e0]; exact hsep _ (belowSp_le _ _ _)
      · unfold retOf; rw [e0]; exact h4
      · unfold retOf; rw [e0]; exact h5
    | some m =>
      have e : k = .stack true ∧ a = some m.newAddr := by
        injection hq with hq; injection hq with _ hq; injection hq with h1 h2
        exact ⟨h1.symm, h2.symm⟩
      obtain ⟨rfl, rfl⟩ := e
      split at hmid
      · cases hmid
      rw [hmid] at hx
      obtain ⟨_, i, rest, _, _, _, _, _, hsc⟩ := C27_exit_position _ _ hx.symm
      obtain ⟨pre, p, post, e1, e2, e3⟩ := blockEnd_offset hend hx.symm hp
      have hm : popMove (some (s.jit dead)) true (co.start b) = some (some m) := by
        simp [popMove, FuncSummary.jit, hmid]
      have hok : ScratchOk jf (deadExit (some (s.jit dead)) addr) (some m) := scratchOk_of_scan hsc
      obtain ⟨c, hc⟩ := check_emitted (addr := addr) hf hm hok
      refine ⟨c, pre, p :: post, hc, e1, fun hx => (nomatch hx), fun x hx => ?_, ?_⟩
      · injection hx with hx; rw [← hx, ← e2]; rfl
      · intro st l hl
        simp only [(e3 st).1, (e3 st).2]
        intro hsep _ h4 h5
        exact C04_check_traps hf hm hok hc hl (hsep _ (belowSp_le _ _ _)) h4 h5

/-! ## Pushes and checks fit together -/

/-- C67.  In a lowered function either all pushes and checks use the register frame, or none
does. -/
theorem C67_lowered_kinds {fl : InstrFlags} {co : CodeObj} {f : Func} {s : FuncSummary}
    {L : Lowered} (h : doLowering fl co f (some s) = some (some L)) :
    (∀ e k, (e, k) ∈ L.edgePush → ∃ ht, k = .reg ht) ∧
      (∀ n k a, (n, k, a) ∈ L.blockPush → ∃ ht, k = .reg ht) ∧
      (∀ b k a, (b, k, a) ∈ L.pops → k = .reg) ∨
    (∀ e k, (e, k) ∈ L.edgePush → ∃ o ht x, k = .stack o ht x) ∧
      (∀ n k a, (n, k, a) ∈ L.blockPush → ∃ o ht x, k = .stack o ht x) ∧
      (∀ b k a, (b, k, a) ∈ L.pops → ∃ o, k = .stack o) := by
  obtain ⟨p1, p2⟩ := low_pushes h
  have p3 := low_pops h
  by_cases hu : (s.shouldUseRegisterFrame && !fl.disableRegFrame) = true
  · left
    rw [hu] at p1 p2 p3
    refine ⟨fun e k hm => ?_, fun n k a hm => ?_, fun b k a hm => ?_⟩
    · have := p1 _ hm
      unfold edgePushOf at this
      cases hh : s.blockEndSPHeight.lookup (co.start e.src) with
      | none => simp only [hh] at this; cases this
      | some v => simp only [hh] at this; cases this; exact ⟨_, rfl⟩
    · have := p2 _ hm
      unfold blockPushOf at this
      cases hh : s.blockEntrySPHeight.lookup (co.start n.1) with
      | none => simp only [hh] at this; cases this
      | some v => simp only [hh] at this; cases this; exact ⟨_, rfl⟩
    · have := p3 _ hm
      unfold popOf at this
      split at this
      · cases this
      · cases this; rfl
  · right
    have hu' : (s.shouldUseRegisterFrame && !fl.disableRegFrame) = false := by
      simpa using hu
    rw [hu'] at p1 p2 p3
    refine ⟨fun e k hm => ?_, fun n k a hm => ?_, fun b k a hm => ?_⟩
    · have := p1 _ hm
      unfold edgePushOf at this
      cases hh : s.blockEndSPHeight.lookup (co.start e.src) with
      | none => simp only [hh] at this; cases this
      | some v =>
        simp only [hh, bind, Option.bind, Bool.false_eq_true, if_false] at this
        split at this <;> cases this <;> exact ⟨_, _, _, rfl⟩
    · have := p2 _ hm
      unfold blockPushOf at this
      cases hh : s.blockEntrySPHeight.lookup (co.start n.1) with
      | none => simp only [hh] at this; cases this
      | some v =>
        simp only [hh, bind, Option.bind, Bool.false_eq_true, if_false] at this
        split at this <;> cases this <;> exact ⟨_, _, _, rfl⟩
    · have := p3 _ hm
      unfold popOf at this
      split at this
      · cases this
      · simp only [Bool.false_eq_true, if_false] at this
        split at this <;> cases this <;> exact ⟨_, rfl⟩

/-! ## Examples -/

theorem sep_upto {a b : W} {k : Nat} (hk : 0 < k)
    (h : ∀ n, n < 16 → k ≤ (b - BitVec.ofNat 64 (n + 1) - a).toNat ∧
      n + 1 ≤ (a - (b - BitVec.ofNat 64 (n + 1))).toNat) :
    ∀ n, n ≤ 16 → Sep a k (b - BitVec.ofNat 64 n) n := by
  intro n hn
  cases n with
  | zero => exact sep_zero
  | succ n => exact sep_of_le hk (by omega) (h n (by omega))

theorem hg_room : Room 0x7000 (sampleState 0x401000 [0x402000]) where
  slot_gs := sep_of_le (by decide) (by decide) (by decide)
  ret_scratch := sep_of_le (by decide) (by decide) (by decide)
  ret_save := sep_upto (by decide) (by decide)
  slot_save := sep_upto (by decide) (by decide)
  gs_save := sep_upto (by decide) (by decide)

theorem hg_normal : Normal {} := ⟨by decide, by decide, rfl⟩

theorem hg_dead : DeadOk {} {} := ⟨(fun h => by cases h), nofun⟩

/-- The stack heights of `lowGraph`, none of whose blocks moves the stack pointer. -/
def hgInfo : StackInfo where
  insns := fun _ => []
  heightEnd := fun b => if b = 2 then some (-24) else some (-8)
  heightStart := fun b => if b = 3 then some (-24) else some (-8)

/-- `C65_heights` on it: block 2 pushes two words, block 3 pops them. -/
example : (stackHeight lowGraph hgInfo 0 {}).blockEndSPHeight.lookup 2 = some 16 ∧
    (stackHeight lowGraph hgInfo 0 {}).blockEntrySPHeight.lookup 2 = some 0 := by
  have hinj : ∀ b, b ∈ lowGraph.blocks 0 → ∀ c, c ∈ lowGraph.blocks 0 →
      lowGraph.start b = lowGraph.start c → b = c := fun _ _ _ _ h => h
  exact C65_heights lowGraph hgInfo 0 {} rfl ⟨rfl, rfl⟩ hinj (b := 2) (by decide)

/-- `C65_edge_push` on the push of `rzSum`, in a state at height -8. -/
example : ∃ L k c, doLowering {} lowGraph 0 (some rzSum) = some (some L) ∧
    (⟨1, 0, 2, .condNotTaken, false, false⟩, k) ∈ L.edgePush ∧
    k.code {} (rzSum.jit {}) 0 2 = some c ∧
    RecordsAt c .rax 0x7000 (sampleState 0x401000 [0x402000]) := by
  obtain ⟨L, k, h1, h2⟩ : ∃ L k, doLowering {} lowGraph 0 (some rzSum) = some (some L) ∧
      (⟨1, 0, 2, .condNotTaken, false, false⟩, k) ∈ L.edgePush :=
    ⟨_, _, rfl, List.mem_cons_self⟩
  obtain ⟨c, ht, h3, h4, h5⟩ := C65_edge_push (info := { hgInfo with heightEnd := fun _ => some (-8) })
    (reg := .rax) h1 rzSum_scan (by decide) h2 (by decide) (by decide) hg_normal hg_dead
    (fun h => absurd rfl h)
  cases h4
  exact ⟨L, k, c, h1, h2, h3, h5 _ _ rfl hg_room⟩

/-- A function whose push is coalesced into block 3, and which pops two words before returning. -/
def hgGraph : CodeObj :=
  { lowGraph with targets := fun b =>
      if b = 0 then [⟨0, 0, 1, .condTaken, false, false⟩, ⟨1, 0, 3, .condNotTaken, false, false⟩]
      else if b = 1 then [⟨2, 1, 3, .condTaken, false, false⟩, ⟨3, 1, 4, .condNotTaken, false, false⟩]
      else if b = 3 then [⟨4, 3, 4, .direct, false, false⟩] else [] }

/-- Its instructions. -/
def hgBody (b : Blk) : List (BInsn × Sem) :=
  if b = 3 then [(pushInsn 16 .rax 8, pushSem .rax 8), (leaInsn 17 .rax .rbx, leaSem .rax .rbx 0),
    (leaInsn 20 .rcx .rbx, leaSem .rcx .rbx 0)]
  else if b = 4 then [(leaInsn 16 .rax .rbx, leaSem .rax .rbx 0), (popInsn 20 .rbx, popSem .rbx),
    (popInsn 21 .rbp, popSem .rbp)]
  else []

/-- With the return. -/
def hgCode (b : Blk) : List (BInsn × Sem) :=
  hgBody b ++ if b = 4 then [(retInsn 22, retSem)] else []

/-- Its summary. -/
def hgSum : FuncSummary :=
  { lowSum [3] with
    entryData := [(3, ⟨17, 8, 2, "x86_64::rax", "x86_64::rcx"⟩),
      (4, ⟨16, 0, 2, "x86_64::rax", "x86_64::rbp"⟩)]
    entryFixedData := [(3, ⟨16, 0, 1, "x86_64::rcx", ""⟩),
      (4, ⟨16, 0, 2, "x86_64::rax", "x86_64::rbp"⟩)]
    exitData := [(4, ⟨20, 16, 2, "x86_64::rbp", "x86_64::rbx"⟩)] }

theorem hgSum_scan : FromScan hgGraph 0 (fun b => (hgCode b).map Prod.fst) hgSum where
  entry := by decide
  fixed := by decide
  addr := by decide

theorem hg_before : ∀ p, p ∈ hgCode 3 → PlainBefore p := by
  intro p hp
  have : p ∈ [(pushInsn 16 .rax 8, pushSem .rax 8), (leaInsn 17 .rax .rbx, leaSem .rax .rbx 0),
    (leaInsn 20 .rcx .rbx, leaSem .rcx .rbx 0)] := hp
  simp only [List.mem_cons, List.not_mem_nil, or_false] at this
  rcases this with rfl | rfl | rfl
  · exact ⟨push_lawful _ _ _, fun _ => push_push8 _, fun h => absurd rfl h⟩
  · exact ⟨lea_lawful _ _ _ _, fun h => (nomatch h), fun _ _ n => by simp [leaInsn]⟩
  · exact ⟨lea_lawful _ _ _ _, fun h => (nomatch h), fun _ _ n => by simp [leaInsn]⟩

theorem hg_after : ∀ p, p ∈ hgBody 4 → PlainAfter p := by
  intro p hp
  have : p ∈ [(leaInsn 16 .rax .rbx, leaSem .rax .rbx 0), (popInsn 20 .rbx, popSem .rbx),
    (popInsn 21 .rbp, popSem .rbp)] := hp
  simp only [List.mem_cons, List.not_mem_nil, or_false] at this
  rcases this with rfl | rfl | rfl
  · exact ⟨lea_lawful _ _ _ _, fun h => (nomatch h), fun h => (nomatch h),
      fun _ _ n => by simp [leaInsn]⟩
  · exact ⟨pop_lawful _ _, fun _ => ⟨pop_pop8 _ (by decide), by decide⟩, fun h => (nomatch h),
      fun h => absurd rfl h⟩
  · exact ⟨pop_lawful _ _, fun _ => ⟨pop_pop8 _ (by decide), by decide⟩, fun h => (nomatch h),
      fun h => absurd rfl h⟩

theorem hg_lowered : ∃ L k a k' a', doLowering {} hgGraph 0 (some hgSum) = some (some L) ∧
    ((3, true), k, some a) ∈ L.blockPush ∧ (4, k', some a') ∈ L.pops :=
  ⟨_, _, _, _, _, rfl, List.mem_cons_self, List.mem_cons_self⟩

/-- `C65_block_push_partial` on it: the push is after `push rax`, and the theorem speaks of all
states at the beginning of the block in which the stack pointer is at the return address. -/
example : ∃ L k a c pre post, doLowering {} hgGraph 0 (some hgSum) = some (some L) ∧
    ((3, true), k, some a) ∈ L.blockPush ∧ k.code {} (hgSum.jit {}) 3 0 = some c ∧
    hgCode 3 = pre ++ post ∧ (post.head?.map fun p => p.1.addr) = some a ∧
    ∀ R st, AtHeight R (-8) st → Room R (runSem pre st) → RecordsAt c .rax R (runSem pre st) := by
  obtain ⟨L, k, a, _, _, h1, h2, _⟩ := hg_lowered
  obtain ⟨c, ht, pre, post, h3, h4, h5, _, h6, h7⟩ := C65_block_push_partial
    (info := { hgInfo with heightStart := fun _ => some (-8) }) (reg := .rax) h1 hgSum_scan
    (by decide) h2 (by decide) hg_before (by decide) hg_normal hg_dead (fun h => absurd rfl h) 0
  cases h4
  exact ⟨L, k, a, c, pre, post, h1, h2, h3, h5, h6 _ rfl, h7⟩

/-- The state before the pops of block 4, with an overwritten return address. -/
def hgBad : State := (sampleState 0x666000 [0x401000]).set .rsp 0x6ff0

theorem hgBad_sep : ∀ n, n ≤ 16 → CheckSep 0x7000 n 2 hgBad := fun n hn =>
  { ret_gs := sep_of_le (by decide) (by decide) (by decide)
    ret_save := sep_upto (b := 0x6ff0) (by decide) (by decide) n hn
    gs_save := sep_upto (b := 0x6ff0) (by decide) (by decide) n hn
    ent_gs := fun i hi => sep_of_le (by decide) (by decide) (by revert i; decide)
    ent_save := fun i hi => sep_upto (b := 0x6ff0) (by decide) (by revert i; decide) n hn }

theorem hgBad_holds : hgBad.Holds [0x401000] where
  entries := by decide
  guard := by decide

theorem hg_post {pre post : List (BInsn × Sem)} (h4 : hgBody 4 = pre ++ post)
    (h6 : (post.head?.map fun p => p.1.addr) = some 20) :
    post = [(popInsn 20 .rbx, popSem .rbx), (popInsn 21 .rbp, popSem .rbp)] := by
  have e : hgBody 4 = [(leaInsn 16 .rax .rbx, leaSem .rax .rbx 0), (popInsn 20 .rbx, popSem .rbx),
    (popInsn 21 .rbp, popSem .rbp)] := rfl
  rw [e] at h4
  match pre, h4 with
  | [], h4 => replace h4 : _ = post := h4; subst h4; exact absurd h6 (by decide)
  | [_], h4 => injection h4 with _ h4; exact h4.symm
  | [_, _], h4 =>
    injection h4 with _ h4; injection h4 with _ h4; replace h4 : _ = post := h4
    subst h4; exact absurd h6 (by decide)
  | [_, _, _], h4 =>
    injection h4 with _ h4; injection h4 with _ h4; injection h4 with _ h4
    replace h4 : _ = post := h4; subst h4; exact absurd h6 (by decide)
  | _ :: _ :: _ :: _ :: _, h4 =>
    injection h4 with _ h4; injection h4 with _ h4; injection h4 with _ h4; cases h4

/-- `C65_check_partial` on it: the check, placed before the pops, traps. -/
example : ∃ L k a c, doLowering {} hgGraph 0 (some hgSum) = some (some L) ∧
    (4, k, some a) ∈ L.pops ∧ k.code {} (hgSum.jit {}) 4 0 = some c ∧ a = 20 ∧
    Traps c hgBad := by
  have h1 : ∃ L, doLowering {} hgGraph 0 (some hgSum) = some (some L) ∧
      (4, .stack true, some 20) ∈ L.pops := ⟨_, rfl, List.mem_cons_self⟩
  obtain ⟨L, h1, h2⟩ := h1
  obtain ⟨c, pre, post, h3, h4, _, h6, h7⟩ := C65_check_partial (code := hgCode 4)
    (body := hgBody 4) (reg := .rax) h1 h2 ⟨by decide, .inr ⟨_, rfl, rfl⟩⟩ (by decide) hg_after hg_normal hg_dead
    (fun h => absurd rfl h) 0
  refine ⟨L, _, _, c, h1, h2, h3, rfl, ?_⟩
  have hpost := hg_post h4 (h6 _ rfl)
  subst hpost
  exact (h7 hgBad [0x401000] hgBad_holds hgBad_sep (fun h => by cases h) (by decide) (by decide)).1

end Verif
