import Verif.Props.Heights
import Verif.Props.Plan
import Verif.Props.FastPath

/-!
C66: pushes and checks of the strategies other than lowering use the return address.
-/

namespace Verif

/-- The pushes of a plan with their points, if they were placed one by one. -/
def Plan.sites : Plan → List (Pt × PushKind)
  | .fastPath p _ => [p]
  | .entryExit ps _ => ps
  | _ => []

/-- The checks of a plan with their points. -/
def Plan.checkSites : Plan → List (Pt × PopKind)
  | .fastPath _ cs => cs
  | .entryExit _ cs => cs
  | _ => []

theorem planPushes_from {fl : InstrFlags} {f : BFunc} {s : Option FuncSummary} :
    ∀ (ps : List Pt) (st : Stats) {l : List (Pt × PushKind)} {st' : Stats},
    planPushes fl f s ps st = some (l, st') → ∀ x, x ∈ l → ∃ q m st1 st2, q ∈ ps ∧
      moveInstrumentation fl f s q st1 = some (m, x.1, st2) ∧ x.2 = .stack m 0 false := by
  intro ps
  induction ps with
  | nil => intro st l st' h x hx; cases h; cases hx
  | cons p ps ih =>
    intro st l st' h x hx
    simp only [planPushes, Option.bind_eq_bind, Option.bind_eq_some_iff] at h
    obtain ⟨⟨m, p', st1⟩, h1, ⟨l1, st2⟩, h2, h3⟩ := h
    cases h3
    rcases List.mem_cons.1 hx with rfl | hx
    · exact ⟨p, m, _, _, List.mem_cons_self, h1, rfl⟩
    · obtain ⟨q, m, a, b, h4, h5, h6⟩ := ih st1 h2 x hx
      exact ⟨q, m, a, b, List.mem_cons_of_mem _ h4, h5, h6⟩

theorem planChecks_from {fl : InstrFlags} {f : BFunc} {s : Option FuncSummary} :
    ∀ (ps : List Pt) (st : Stats) {l : List (Pt × PopKind)} {st' : Stats},
    planChecks fl f s ps st = some (l, st') → ∀ x, x ∈ l → ∃ q m st1 st2, q ∈ ps ∧
      moveInstrumentation fl f s q st1 = some (m, x.1, st2) ∧ x.2 = .stack m := by
  intro ps
  induction ps with
  | nil => intro st l st' h x hx; cases h; cases hx
  | cons p ps ih =>
    intro st l st' h x hx
    simp only [planChecks, Option.bind_eq_bind, Option.bind_eq_some_iff] at h
    obtain ⟨⟨m, p', st1⟩, h1, ⟨l1, st2⟩, h2, h3⟩ := h
    cases h3
    rcases List.mem_cons.1 hx with rfl | hx
    · exact ⟨p, m, _, _, List.mem_cons_self, h1, rfl⟩
    · obtain ⟨q, m, a, b, h4, h5, h6⟩ := ih st1 h2 x hx
      exact ⟨q, m, a, b, List.mem_cons_of_mem _ h4, h5, h6⟩

/-- Where the points of a plan come from. -/
theorem light_sites {fl : InstrFlags} {co : CodeObj} {f : BFunc} {s : Option FuncSummary}
    {st st' : Stats} {p : Plan} (h : instrumentLight fl co f s st = some (p, st')) :
    (∀ x, x ∈ p.sites → ∃ q m st1 st2, moveInstrumentation fl f s q st1 = some (m, x.1, st2) ∧
      x.2 = .stack m 0 false ∧ ((q.kind = .entry ∧ q.blk ∈ f.entryPoints) ∨
        q.kind = .blockEntry ∧ ∃ xs, checkFastPath fl.disableLowering f.cfg = some (q.blk, xs))) ∧
    (∀ x, x ∈ p.checkSites → ∃ q m st1 st2, moveInstrumentation fl f s q st1 = some (m, x.1, st2) ∧
      x.2 = .stack m ∧ ((q.kind = .exit ∧ q.blk ∈ f.exitPoints ∧
        isNonreturningCall (co.targets q.blk) = false) ∨
        q.kind = .blockExit ∧ ∃ b xs, checkFastPath fl.disableLowering f.cfg = some (b, xs) ∧
          q.blk ∈ xs)) := by
  unfold instrumentLight at h
  simp only [bind, Option.bind] at h
  split at h
  · cases h
  rename_i lo hlo
  cases lo with
  | some L => cases h; exact ⟨fun x hx => absurd hx List.not_mem_nil, fun x hx => absurd hx List.not_mem_nil⟩
  | none =>
    simp only at h
    split at h
    · cases h; exact ⟨fun x hx => absurd hx List.not_mem_nil, fun x hx => absurd hx List.not_mem_nil⟩
    split at h
    · rename_i b xs hfp _
      split at h
      · cases h
      rename_i pst hp1
      obtain ⟨pushes, st1⟩ := pst
      simp only at h
      split at h
      · cases h
      rename_i cst hp2
      obtain ⟨checks, st2⟩ := cst
      simp only at h
      split at h
      · cases h
        refine ⟨fun x hx => ?_, fun x hx => ?_⟩
        · obtain ⟨q, m, a, c, h1, h2, h3⟩ := planPushes_from _ _ hp1 x hx
          have := List.mem_singleton.1 h1
          subst this
          exact ⟨_, m, a, c, h2, h3, .inr ⟨rfl, xs, hfp⟩⟩
        · obtain ⟨q, m, a, c, h1, h2, h3⟩ := planChecks_from _ _ hp2 x hx
          obtain ⟨y, hy, rfl⟩ := List.mem_map.1 h1
          exact ⟨_, m, a, c, h2, h3, .inr ⟨rfl, b, xs, hfp, hy⟩⟩
      · cases h
    · split at h
      · cases h
      rename_i pst hp1
      obtain ⟨pushes, st1⟩ := pst
      simp only at h
      split at h
      · cases h
      rename_i cst hp2
      obtain ⟨checks, st2⟩ := cst
      simp only at h
      cases h
      refine ⟨fun x hx => ?_, fun x hx => ?_⟩
      · obtain ⟨q, m, a, c, h1, h2, h3⟩ := planPushes_from _ _ hp1 x hx
        obtain ⟨y, hy, rfl⟩ := List.mem_map.1 h1
        exact ⟨_, m, a, c, h2, h3, .inl ⟨rfl, hy⟩⟩
      · obtain ⟨q, m, a, c, h1, h2, h3⟩ := planChecks_from _ _ hp2 x hx
        obtain ⟨y, hy, rfl⟩ := List.mem_map.1 h1
        have hy' := List.mem_filter.1 hy
        exact ⟨_, m, a, c, h2, h3, .inl ⟨rfl, hy'.1, by simpa using hy'.2⟩⟩

theorem function_light {fl : InstrFlags} {skip : List Nat} {co : CodeObj}
    {an : Nat → Option (FuncSummary × List WriteInfo)} {f : BFunc} {st st' : Stats} {p : Plan}
    (h : instrumentFunction fl skip co an f st = some (p, st'))
    (hx : p.sites ≠ [] ∨ p.checkSites ≠ []) :
    ∃ st1, instrumentLight fl co f ((an f.base).map Prod.fst) st1 = some (p, st') := by
  unfold instrumentFunction at h
  dsimp only at h
  split at h
  · split at h
    · cases h
    split at h
    · cases h; rcases hx with hx | hx <;> exact absurd rfl hx
    · exact ⟨_, h⟩
  · cases h; rcases hx with hx | hx <;> exact absurd rfl hx

/-- A push for a function with or without a summary, at height -8 of the return address. -/
theorem anyPush_records {jf : JitFlags} (hf : Normal jf) {sm : Option JitSummary} {o x : Bool}
    {b trg : Nat} {mid : Option MoveInst} (reg : Reg)
    (hm : pushMove sm o x b trg = some mid) (hok : ScratchOk jf (deadEntry sm) mid) :
    ∃ c, jitStackPush jf sm o 0 x b trg = some c ∧ ∀ (R : W) (st : State), Room R st →
      st.regs .rsp + BitVec.ofInt 64 (popDisp mid) = R → RecordsAt c reg R st := by
  obtain ⟨c, hc, hx⟩ := C01_push_records hf sm o x 0 b trg mid hm hok
  refine ⟨c, hc, fun R st hr hR => ?_⟩
  have hd : pushDisp sm mid 0 = popDisp mid := by
    unfold pushDisp popDisp; cases mid <;> cases sm <;> simp
  have hR' : st.regs .rsp + BitVec.ofInt 64 (pushDisp sm mid 0) = R := by rw [hd]; exact hR
  obtain ⟨st', h1, h2, h3, _⟩ := hx st (by
    rw [hR']
    exact ⟨hr.slot_gs, hr.ret_save _ (belowSp_le _ _ _), hr.slot_save _ (belowSp_le _ _ _),
      hr.gs_save _ (belowSp_le _ _ _)⟩)
  rw [hR'] at h2
  exact .stack st' h1 h2 h3

/-- C66.  A push of the fast path, or at an entry, records the return address if the stack
pointer points to it at the beginning of the block, wherever in the block the push is placed. -/
theorem C66_push_partial {fl : InstrFlags} {skip : List Nat} {co : CodeObj}
    {an : Nat → Option (FuncSummary × List WriteInfo)} {f : BFunc} {st st' : Stats} {p : Plan}
    (h : instrumentFunction fl skip co an f st = some (p, st')) {pt : Pt} {k : PushKind}
    (hx : (pt, k) ∈ p.sites) {code : List (BInsn × Sem)}
    (hs : ∀ s, (an f.base).map Prod.fst = some s →
      s.entryData.lookup (f.start pt.blk) = entryData (code.map Prod.fst))
    (hplain : ∀ q, q ∈ code → PlainBefore q) (hlen : 8 * code.length + 8 ≤ 2 ^ 64)
    {dead : DeadNames} {jf : JitFlags} (hf : Normal jf) (hd : DeadOk jf dead) (trg : Nat) :
    ∃ o c pre post, k = .stack o 0 false ∧
      jitStackPush jf (((an f.base).map Prod.fst).map (·.jit dead)) o 0 false (f.start pt.blk) trg =
        some c ∧ code = pre ++ post ∧
      (pt.kind ≠ .insn → pre = [] ∧ (pt.kind = .entry ∧ pt.blk ∈ f.entryPoints ∨
        pt.kind = .blockEntry ∧ ∃ xs, checkFastPath fl.disableLowering f.cfg = some (pt.blk, xs))) ∧
      (pt.kind = .insn → (post.head?.map fun q => q.1.addr) = some pt.addr) ∧
      ∀ (R : W) (s : State), s.regs .rsp = R → Room R (runSem pre s) →
        RecordsAt c .rax R (runSem pre s) := by
  obtain ⟨st0, hl⟩ := function_light h (.inl (List.ne_nil_of_mem hx))
  obtain ⟨q, m, a, b, h1, h2, h3⟩ := (light_sites hl).1 _ hx
  simp only at h1 h2
  subst h2
  obtain ⟨_, hm1, hm2⟩ := move_spec h1
  cases m with
  | false =>
    have := hm1 rfl
    subst this
    obtain ⟨c, hc, hr⟩ := anyPush_records hf (sm := ((an f.base).map Prod.fst).map (·.jit dead))
      (o := false) (x := false) (b := f.start pt.blk) (trg := trg) (mid := none) .rax rfl
      ⟨by simp, fun _ => by
        cases (an f.base).map Prod.fst with
        | none => intro _ h; exact absurd rfl h
        | some s => exact hd.entry⟩
    refine ⟨false, c, [], code, rfl, hc, rfl, fun _ => ⟨rfl, h3⟩, fun hk => ?_, fun R s hR hro => ?_⟩
    · rcases h3 with ⟨h3, _⟩ | ⟨h3, _⟩ <;> rw [hk] at h3 <;> cases h3
    · exact hr R _ hro (by rw [← hR]; simp [popDisp, runSem])
  | true =>
    obtain ⟨k1, k2, k3, s, k4, k5⟩ := hm2 rfl
    have hlk : ∃ mid, s.entryData.lookup (f.start pt.blk) = some mid ∧ pt.addr = mid.newAddr := by
      rcases k5 with ⟨_, _, _, k⟩ | ⟨_, _, k⟩ | ⟨k, _⟩
      · exact k
      · exact k
      · rcases h3 with ⟨h3, _⟩ | ⟨h3, _⟩ <;> rcases k with k | k <;> rw [h3] at k <;> cases k
    obtain ⟨mid, hl1, hl2⟩ := hlk
    have hm : entryData (code.map Prod.fst) = some mid := by rw [← hs s k4]; exact hl1
    obtain ⟨_, i, rest, _, _, _, _, hsc⟩ := C26_entry_position _ _ hm
    obtain ⟨pre, x, post, e1, e2, e3⟩ := C26_entry_return_address_partial _ _ hm hplain hlen
    rw [k4]
    obtain ⟨c, hc, hr⟩ := anyPush_records hf (sm := some (s.jit dead))
      (o := true) (x := false) (b := f.start pt.blk) (trg := trg) (mid := some mid) .rax
      (by simp [pushMove, FuncSummary.jit, hl1]) (scratchOk_of_scan hsc)
    refine ⟨true, c, pre, x :: post, rfl, hc, e1, fun hk => absurd k1 hk, fun _ => ?_,
      fun R st hR hro => ?_⟩
    · rw [hl2, ← e2]; rfl
    · exact hr R _ hro (by simp only [popDisp]; rw [(e3 st).1]; exact hR)

/-- Stack heights of a function, relative to the return address: each block changes the
height by a fixed amount, heights agree along edges, and a block which only returns is
entered with the stack pointer at the return address. -/
structure Heights (g : FlowGraph) (hin hout : Blk → Int) : Prop where
  edge : ∀ b, b ∈ g.blocks → ∀ e, e ∈ g.out b → hin e.trg = hout b
  ret : ∀ b, g.returns b = [true] → hin b = 0

/-- C66.  On the fast path the stack pointer is at the return address where the push is placed,
and also at the end of each checked block which goes on to the fast exit. -/
theorem C66_fast_path_heights {dis : Bool} {g : FlowGraph} {slow : Blk} {xs : List Blk}
    (h : checkFastPath dis g = some (slow, xs)) (hok : g.Ok) {hin hout : Blk → Int}
    (hh : Heights g hin hout) :
    hin slow = 0 ∧ ∀ b, b ∈ xs → b ∈ g.exits ∨ hout b = 0 := by
  obtain ⟨_, fe, fx, hf⟩ := fast_facts h
  have hfe : fe ∈ g.blocks := hok.entries fe (by rw [hf.entries]; simp)
  obtain ⟨e1, he1, ht1⟩ := hf.toSlow
  obtain ⟨e2, he2, ht2⟩ := hf.toFast
  have h0 := hh.ret fx hf.ret
  refine ⟨?_, fun b hb => ?_⟩
  · have a1 := hh.edge fe hfe e1 he1
    have a2 := hh.edge fe hfe e2 he2
    rw [ht1] at a1; rw [ht2] at a2
    rw [a1, ← a2, h0]
  · obtain ⟨l, hl, rfl⟩ := hf.list
    rcases List.mem_append.1 hb with hb | hb
    · right
      rw [(slowExits_spec g fe _ l hl).1] at hb
      obtain ⟨e, he, rfl⟩ := List.mem_map.1 hb
      obtain ⟨⟨c, hc, hec⟩, ht⟩ := mem_inc.1 (List.mem_filter.1 he).1
      have := hh.edge c hc e hec
      rw [ht, h0] at this
      rw [hok.src c e hec]; exact this.symm
    · exact .inl (List.mem_filter.1 hb).1

/-- C66.  A check of the fast path or at an exit tests the word to which the stack pointer
points at the end of the block, before the return if the block ends in one: if that word is
neither 0 nor recorded, the check traps. -/
theorem C66_check_partial {fl : InstrFlags} {skip : List Nat} {co : CodeObj}
    {an : Nat → Option (FuncSummary × List WriteInfo)} {f : BFunc} {st st' : Stats} {p : Plan}
    (h : instrumentFunction fl skip co an f st = some (p, st')) {pt : Pt} {k : PopKind}
    (hx : (pt, k) ∈ p.checkSites) {code body : List (BInsn × Sem)} (hend : BlockEnd code body)
    (hs : ∀ s, (an f.base).map Prod.fst = some s →
      s.exitData.lookup (f.start pt.blk) = exitData (code.map Prod.fst))
    (hp : ∀ q ∈ body, PlainAfter q)
    {dead : DeadNames} {jf : JitFlags} (hf : Normal jf) (hd : DeadOk jf dead) (addr : Nat) :
    ∃ o c pre post, k = .stack o ∧
      jitStackPop jf (((an f.base).map Prod.fst).map (·.jit dead)) o (f.start pt.blk) addr =
        some c ∧ body = pre ++ post ∧
      (pt.kind ≠ .insn → post = [] ∧ (pt.kind = .exit ∧ pt.blk ∈ f.exitPoints ∨
        pt.kind = .blockExit ∧ ∃ b xs, checkFastPath fl.disableLowering f.cfg = some (b, xs) ∧
          pt.blk ∈ xs)) ∧
      (pt.kind = .insn → (post.head?.map fun q => q.1.addr) = some pt.addr) ∧
      ∀ (s : State) (l : List W), s.Holds l →
        let R := (runSem post s).regs .rsp
        let v := (runSem post s).mem.read64 R
        (∀ n, n ≤ 16 → CheckSep R n (l.length + 1) s) → v ≠ 0 → v ∉ l →
        Traps c s ∧ ∀ s', ¬ Exits c s s' := by
  obtain ⟨st0, hl⟩ := function_light h (.inr (List.ne_nil_of_mem hx))
  obtain ⟨q, m, a, b, h1, h2, h3⟩ := (light_sites hl).2 _ hx
  simp only at h1 h2
  subst h2
  obtain ⟨_, hm1, hm2⟩ := move_spec h1
  cases m with
  | false =>
    have := hm1 rfl
    subst this
    generalize hsm : ((an f.base).map Prod.fst).map (·.jit dead) = sm
    have hm : popMove sm false (f.start pt.blk) = some none := rfl
    have hok : ScratchOk jf (deadExit sm addr) none := by
      rw [← hsm]
      cases (an f.base).map Prod.fst with
      | none => exact ⟨by simp, fun _ _ hne => absurd rfl hne⟩
      | some s => exact hd.atExit
    obtain ⟨c, hc⟩ := check_emitted hf hm hok
    refine ⟨false, c, body, [], rfl, hc, by simp, fun _ => ⟨rfl, ?_⟩, fun hk => ?_, ?_⟩
    · rcases h3 with ⟨h3, h4, _⟩ | h3
      · exact .inl ⟨h3, h4⟩
      · exact .inr h3
    · rcases h3 with ⟨h3, _⟩ | ⟨h3, _⟩ <;> rw [hk] at h3 <;> cases h3
    · intro s l hl'
      simp only [runSem]
      intro hsep h4 h5
      have e0 : s.regs .rsp + BitVec.ofInt 64 (popDisp none) = s.regs .rsp := by simp [popDisp]
      refine C04_check_traps hf hm hok hc hl' ?_ ?_ ?_
      · unfold CheckReady; rw [e0]; exact hsep _ (belowSp_le _ _ _)
      · unfold retOf; rw [e0]; exact h4
      · unfold retOf; rw [e0]; exact h5
  | true =>
    obtain ⟨k1, k2, k3, s, k4, k5⟩ := hm2 rfl
    have hlk : ∃ mid, s.exitData.lookup (f.start pt.blk) = some mid ∧ pt.addr = mid.newAddr := by
      rcases k5 with ⟨k, _⟩ | ⟨k, _⟩ | ⟨_, _, k⟩
      · rcases h3 with ⟨h3, _⟩ | ⟨h3, _⟩ <;> rw [h3] at k <;> cases k
      · rcases h3 with ⟨h3, _⟩ | ⟨h3, _⟩ <;> rw [h3] at k <;> cases k
      · exact k
    obtain ⟨mid, hl1, hl2⟩ := hlk
    have hmd : exitData (code.map Prod.fst) = some mid := by rw [← hs s k4]; exact hl1
    obtain ⟨_, i, rest, _, _, _, _, _, hsc⟩ := C27_exit_position _ _ hmd
    have hpos := blockEnd_offset hend hmd hp
    obtain ⟨pre, x, post, e1, e2, e3⟩ := hpos
    rw [k4]
    have hm : popMove (some (s.jit dead)) true (f.start pt.blk) = some (some mid) := by
      simp [popMove, FuncSummary.jit, hl1]
    have hok : ScratchOk jf (deadExit (some (s.jit dead)) addr) (some mid) := scratchOk_of_scan hsc
    obtain ⟨c, hc⟩ := check_emitted (addr := addr) hf hm hok
    refine ⟨true, c, pre, x :: post, rfl, hc, e1, fun hk => absurd k1 hk, fun _ => ?_, ?_⟩
    · rw [hl2, ← e2]; rfl
    · intro st l hl'
      simp only [(e3 st).1, (e3 st).2]
      intro hsep h4 h5
      exact C04_check_traps hf hm hok hc hl' (hsep _ (belowSp_le _ _ _)) h4 h5

/-- C67.  In every strategy but lowering (see `C67_lowered_kinds`) pushes and checks are for the
shadow stack, except for the register frame, where both are for the register. -/
theorem C67_plan_kinds {fl : InstrFlags} {skip : List Nat} {co : CodeObj}
    {an : Nat → Option (FuncSummary × List WriteInfo)} {f : BFunc} {st st' : Stats} {p : Plan}
    (h : instrumentFunction fl skip co an f st = some (p, st')) :
    (∀ x, x ∈ p.sites → ∃ o, x.2 = .stack o 0 false) ∧ (∀ x, x ∈ p.checkSites → ∃ o, x.2 = .stack o) := by
  constructor
  · intro x hx
    obtain ⟨st0, hl⟩ := function_light h (.inl (List.ne_nil_of_mem hx))
    obtain ⟨q, m, a, b, h1, h2, h3⟩ := (light_sites hl).1 _ hx
    exact ⟨_, h2⟩
  · intro x hx
    obtain ⟨st0, hl⟩ := function_light h (.inr (List.ne_nil_of_mem hx))
    obtain ⟨q, m, a, b, h1, h2, h3⟩ := (light_sites hl).2 _ hx
    exact ⟨_, h2⟩

/-! ## Examples -/

/-- Heights of `fastGraph`: block 1 pushes two words and block 2 pops them. -/
def fastIn (b : Blk) : Int := if b = 2 ∨ b = 4 then -16 else 0

/-- Heights at the ends of the blocks. -/
def fastOut (b : Blk) : Int := if b = 1 then -16 else 0

theorem fast_heights : Heights fastGraph fastIn fastOut where
  edge := by decide
  ret b hb := by
    unfold fastIn
    split
    · rename_i h
      rcases h with rfl | rfl <;> exact absurd hb (by decide)
    · rfl

example : fastIn 1 = 0 ∧ ∀ b, b ∈ [2, 4] → b ∈ fastGraph.exits ∨ fastOut b = 0 :=
  C66_fast_path_heights (dis := false) (by decide) fastGraph_ok fast_heights

/-- A summary of `fastFunc`: the push moves past a `push` in block 1, and the check before two
`pop`s in block 2. -/
def fastSum : FuncSummary :=
  { entryData := [(4112, ⟨17, 8, 2, "x86_64::rax", "x86_64::rcx"⟩)]
    exitData := [(4128, ⟨20, 16, 2, "x86_64::rbp", "x86_64::rbx"⟩)] }

/-- `C66_push_partial` and `C66_check_partial` on it. -/
example : ∃ p st pt k c pre post, instrumentFunction {} [] fastCode (fun _ => some (fastSum, []))
      fastFunc {} = some (p, st) ∧ (pt, PushKind.stack k 0 false) ∈ p.sites ∧ pt.addr = 17 ∧
    jitStackPush {} (some (fastSum.jit {})) k 0 false 4112 0 = some c ∧ hgCode 3 = pre ++ post ∧
    (post.head?.map fun q => q.1.addr) = some 17 ∧
    ∀ (R : W) (s : State), s.regs .rsp = R → Room R (runSem pre s) →
      RecordsAt c .rax R (runSem pre s) := by
  have h : ∃ p st, instrumentFunction {} [] fastCode (fun _ => some (fastSum, []))
      fastFunc {} = some (p, st) ∧ (⟨.insn, 1, 17⟩, PushKind.stack true 0 false) ∈ p.sites :=
    ⟨_, _, rfl, List.mem_cons_self⟩
  obtain ⟨p, st, h1, h2⟩ := h
  obtain ⟨o, c, pre, post, h3, h4, h5, _, h6, h7⟩ := C66_push_partial h1 h2 (code := hgCode 3)
    (fun s hs => by cases hs; decide) hg_before (by decide) hg_normal hg_dead 0
  cases h3
  exact ⟨p, st, _, _, c, pre, post, h1, h2, rfl, h4, h5, h6 rfl, h7⟩

example : ∃ p st c, instrumentFunction {} [] fastCode (fun _ => some (fastSum, []))
      fastFunc {} = some (p, st) ∧ (⟨.insn, 2, 20⟩, PopKind.stack true) ∈ p.checkSites ∧
    jitStackPop {} (some (fastSum.jit {})) true 4128 0 = some c ∧ Traps c hgBad := by
  have h : ∃ p st, instrumentFunction {} [] fastCode (fun _ => some (fastSum, []))
      fastFunc {} = some (p, st) ∧ (⟨.insn, 2, 20⟩, PopKind.stack true) ∈ p.checkSites :=
    ⟨_, _, rfl, List.mem_cons_self⟩
  obtain ⟨p, st, h1, h2⟩ := h
  obtain ⟨o, c, pre, post, h3, h4, h5, _, h6, h7⟩ := C66_check_partial h1 h2 (code := hgCode 4)
    (body := hgBody 4) ⟨by decide, .inr ⟨_, rfl, rfl⟩⟩
    (fun s hs => by cases hs; decide) hg_after hg_normal hg_dead 0
  cases h3
  have hpost := hg_post h5 (h6 rfl)
  subst hpost
  exact ⟨p, st, c, h1, h2, h4,
    (h7 hgBad [0x401000] hgBad_holds hgBad_sep (by decide) (by decide)).1⟩

end Verif
