import Verif.Plan
import Verif.Props.Lowering
import Verif.Props.FastPath

/-!
# C39 - C44: which functions are instrumented, how, and the reported numbers
-/

namespace Verif

/-! ## Points and counters -/

/-- The kind of strategy. -/
inductive PlanKind
  | skipped | lowered | regFrame | fastPath | entryExit | full
  deriving DecidableEq, Repr

/-- The kind of a plan. -/
def Plan.kind : Plan → PlanKind
  | .skipped => .skipped
  | .lowered _ => .lowered
  | .regFrame _ _ => .regFrame
  | .fastPath _ _ => .fastPath
  | .entryExit _ _ => .entryExit
  | .full _ _ => .full

/-- Only the two counters of dead register sites changed, consistently. -/
structure SitesOnly (st st' : Stats) : Prop where
  rest : st' = { st with deadRegSite := st'.deadRegSite, noDeadRegSite := st'.noDeadRegSite }
  none : st.noDeadRegSite ≤ st'.noDeadRegSite
  all : st'.noDeadRegSite - st.noDeadRegSite ≤ st'.deadRegSite - st.deadRegSite
  mono : st.deadRegSite ≤ st'.deadRegSite

theorem SitesOnly.refl (st : Stats) : SitesOnly st st := ⟨rfl, Nat.le_refl _, by simp, Nat.le_refl _⟩

theorem SitesOnly.trans {a b c : Stats} (h : SitesOnly a b) (h' : SitesOnly b c) : SitesOnly a c where
  rest := by
    have h1 := h.rest
    have h2 := h'.rest
    rw [h2, h1]
  none := Nat.le_trans h.none h'.none
  all := by have := h.all; have := h'.all; have := h.none; have := h'.none; have := h.mono
            have := h'.mono; omega
  mono := Nat.le_trans h.mono h'.mono

/-- What moving does: the counters, and the point stays in its block (or goes to the only entry
block). -/
theorem move_spec {fl : InstrFlags} {f : BFunc} {s : Option FuncSummary} {p p' : Pt} {st st' : Stats}
    {m : Bool} (h : moveInstrumentation fl f s p st = some (m, p', st')) :
    SitesOnly st st' ∧ (m = false → p' = p) ∧
    (m = true → p'.kind = .insn ∧ f.isInsn p'.blk p'.addr = true ∧ fl.disableRegSaveOpt = false ∧
      ∃ s', s = some s' ∧
      ((p.kind = .entry ∧ f.cfg.entries = [p'.blk] ∧ f.cfg.inc p'.blk = [] ∧
          ∃ mid, s'.entryData.lookup (f.start p'.blk) = some mid ∧ p'.addr = mid.newAddr) ∨
       (p.kind = .blockEntry ∧ p'.blk = p.blk ∧
          ∃ mid, s'.entryData.lookup (f.start p'.blk) = some mid ∧ p'.addr = mid.newAddr) ∨
       ((p.kind = .exit ∨ p.kind = .blockExit) ∧ p'.blk = p.blk ∧
          ∃ mid, s'.exitData.lookup (f.start p'.blk) = some mid ∧ p'.addr = mid.newAddr))) := by
  have hno : ∀ st : Stats, SitesOnly st
      { st with deadRegSite := st.deadRegSite + 1, noDeadRegSite := st.noDeadRegSite + 1 } :=
    fun st => ⟨rfl, by simp, by simp, by simp⟩
  have hyes : ∀ st : Stats, SitesOnly st { st with deadRegSite := st.deadRegSite + 1 } :=
    fun st => ⟨rfl, by simp, by simp, by simp⟩
  unfold moveInstrumentation at h
  split at h
  · cases h; exact ⟨.refl _, fun _ => rfl, by simp⟩
  rename_i hdis
  have hdis : fl.disableRegSaveOpt = false := by simpa using hdis
  split at h
  · cases h; exact ⟨.refl _, fun _ => rfl, by simp⟩
  rename_i s
  dsimp only at h
  split at h
  · rename_i hk
    split at h
    · rename_i b hb
      split at h
      · cases h; exact ⟨hno st, fun _ => rfl, by simp⟩
      rename_i hinc
      split at h
      · cases h; exact ⟨hno st, fun _ => rfl, by simp⟩
      rename_i mid hmid
      split at h
      · rename_i hi
        cases h
        exact ⟨hyes st, by simp, fun _ => ⟨rfl, hi, hdis, s, rfl,
          .inl ⟨hk, hb, List.length_eq_zero_iff.mp (Nat.le_zero.mp (Nat.not_lt.mp hinc)), mid, hmid,
            rfl⟩⟩⟩
      · cases h
    · cases h; exact ⟨hno st, fun _ => rfl, by simp⟩
  · rename_i hk
    split at h
    · cases h; exact ⟨hno st, fun _ => rfl, by simp⟩
    rename_i mid hmid
    split at h
    · rename_i hi
      cases h
      exact ⟨hyes st, by simp, fun _ => ⟨rfl, hi, hdis, s, rfl, .inr (.inl ⟨hk, rfl, mid, hmid, rfl⟩)⟩⟩
    · cases h
  · rename_i hk
    split at h
    · cases h; exact ⟨hno st, fun _ => rfl, by simp⟩
    rename_i mid hmid
    split at h
    · rename_i hi
      cases h
      exact ⟨hyes st, by simp, fun _ => ⟨rfl, hi, hdis, s, rfl,
        .inr (.inr ⟨.inl hk, rfl, mid, hmid, rfl⟩)⟩⟩
    · cases h
  · rename_i hk
    split at h
    · cases h; exact ⟨hno st, fun _ => rfl, by simp⟩
    rename_i mid hmid
    split at h
    · rename_i hi
      cases h
      exact ⟨hyes st, by simp, fun _ => ⟨rfl, hi, hdis, s, rfl,
        .inr (.inr ⟨.inr hk, rfl, mid, hmid, rfl⟩)⟩⟩
    · cases h
  · cases h; exact ⟨hno st, fun _ => rfl, by simp⟩

theorem move_blk {fl : InstrFlags} {f : BFunc} {s : Option FuncSummary} {p p' : Pt} {st st' : Stats}
    {m : Bool} (h : moveInstrumentation fl f s p st = some (m, p', st'))
    (hp : p.kind = .entry → f.cfg.entries = [p'.blk] → p.blk = p'.blk) : p'.blk = p.blk := by
  obtain ⟨_, h1, h2⟩ := move_spec h
  cases m with
  | false => rw [h1 rfl]
  | true =>
    obtain ⟨_, _, _, _, _, ⟨k1, k2, _⟩ | ⟨_, k, _⟩ | ⟨_, k, _⟩⟩ := h2 rfl
    · exact (hp k1 k2).symm
    · exact k
    · exact k

theorem planPushes_spec {fl : InstrFlags} {f : BFunc} {s : Option FuncSummary} :
    ∀ (ps : List Pt) (st : Stats) {l : List (Pt × PushKind)} {st' : Stats},
    planPushes fl f s ps st = some (l, st') → SitesOnly st st' ∧
    ((∀ p ∈ ps, p.kind = .entry → ∀ b, f.cfg.entries = [b] → p.blk = b) →
      l.map (fun x => x.1.blk) = ps.map (·.blk)) := by
  intro ps
  induction ps with
  | nil => intro st l st' h; cases h; exact ⟨.refl _, fun _ => rfl⟩
  | cons p ps ih =>
    intro st l st' h
    simp only [planPushes, Option.bind_eq_bind, Option.bind_eq_some_iff] at h
    obtain ⟨⟨m, p', st1⟩, h1, ⟨l1, st2⟩, h2, h3⟩ := h
    cases h3
    obtain ⟨i1, i2⟩ := ih st1 h2
    refine ⟨(move_spec h1).1.trans i1, fun hp => ?_⟩
    have := move_blk h1 (fun k1 k2 => hp p List.mem_cons_self k1 _ k2)
    simp [i2 fun p hm => hp p (List.mem_cons_of_mem _ hm), this]

theorem planChecks_spec {fl : InstrFlags} {f : BFunc} {s : Option FuncSummary} :
    ∀ (ps : List Pt) (st : Stats) {l : List (Pt × PopKind)} {st' : Stats},
    planChecks fl f s ps st = some (l, st') → (∀ p ∈ ps, p.kind ≠ .entry) →
    SitesOnly st st' ∧ l.map (fun x => x.1.blk) = ps.map (·.blk) := by
  intro ps
  induction ps with
  | nil => intro st l st' h _; cases h; exact ⟨.refl _, rfl⟩
  | cons p ps ih =>
    intro st l st' h hp
    simp only [planChecks, Option.bind_eq_bind, Option.bind_eq_some_iff] at h
    obtain ⟨⟨m, p', st1⟩, h1, ⟨l1, st2⟩, h2, h3⟩ := h
    cases h3
    obtain ⟨i1, i2⟩ := ih st1 h2 fun p hm => hp p (List.mem_cons_of_mem _ hm)
    refine ⟨(move_spec h1).1.trans i1, ?_⟩
    have := move_blk h1 (fun k1 _ => absurd k1 (hp p List.mem_cons_self))
    simp [i2, this]

/-! ## What each strategy does -/

/-- `p` is the strategy prescribed for `f`; `s` is its summary. -/
inductive Strategy (fl : InstrFlags) (co : CodeObj) (f : BFunc) (s : Option FuncSummary) : Plan → Prop
  | lowered {L : Lowered} : doLowering fl co f.func s = some (some L) → Strategy fl co f s (.lowered L)
  | regFrame {s' : FuncSummary} : doLowering fl co f.func s = some none → s = some s' →
      fl.disableRegFrame = false → s'.callees = [] → s'.unusedRegs ≠ [] → s'.hasUnknownCf = false →
      s'.pltCalls = [] →
      Strategy fl co f s (.regFrame f.entryPoints
        (f.exitPoints.filter fun b => !isNonreturningCall (co.targets b)))
  | fastPath {s' : FuncSummary} {slow : Blk} {xs : List Blk} {p : Pt × PushKind}
      {checks : List (Pt × PopKind)} : doLowering fl co f.func s = some none → s = some s' →
      checkFastPath fl.disableLowering f.cfg = some (slow, xs) → p.1.blk = slow →
      checks.map (fun x => x.1.blk) = xs → Strategy fl co f s (.fastPath p checks)
  | entryExit {pushes : List (Pt × PushKind)} {checks : List (Pt × PopKind)} :
      doLowering fl co f.func s = some none →
      (s.isSome = true → checkFastPath fl.disableLowering f.cfg = none) →
      ((∀ b, f.cfg.entries = [b] → ∀ x ∈ f.entryPoints, x = b) →
        pushes.map (fun x => x.1.blk) = f.entryPoints) →
      checks.map (fun x => x.1.blk) =
        (f.exitPoints.filter fun b => !isNonreturningCall (co.targets b)) →
      Strategy fl co f s (.entryExit pushes checks)

theorem useRegFrame_iff (fl : InstrFlags) (s : Option FuncSummary) : useRegFrame fl s = true ↔
    fl.disableRegFrame = false ∧ ∃ s', s = some s' ∧ s'.callees = [] ∧ s'.unusedRegs ≠ [] ∧
      s'.hasUnknownCf = false ∧ s'.pltCalls = [] := by
  cases s with
  | none => simp [useRegFrame]
  | some s =>
    simp only [useRegFrame, FuncSummary.shouldUseRegisterFrame, Option.some.injEq]
    cases h1 : s.callees <;> cases h2 : s.unusedRegs <;> cases h3 : s.hasUnknownCf <;>
      cases h4 : s.pltCalls <;> simp [h1, h2, h3, h4]

/-- `name` if the plan is of one of the kinds. -/
def Plan.tag (ks : List PlanKind) (p : Plan) (name : String) : List String :=
  if p.kind ∈ ks then [name] else []

/-- How the counters change for one function. -/
structure Account (f : BFunc) (p : Plan) (st st' : Stats) : Prop where
  total : st'.totalFunc = st.totalFunc
  safe : st'.safeFns = st.safeFns ++ p.tag [.skipped] f.name
  lowered : st'.loweredFns = st.loweredFns ++ p.tag [.lowered, .fastPath] f.name
  reg : st'.regStackFns = st.regStackFns ++ p.tag [.regFrame] f.name
  calls : st'.withIndirectOrPlt = st.withIndirectOrPlt ∧ st'.withIndirect = st.withIndirect ∧
    st'.withPlt = st.withPlt
  writes : st'.memoryWrites = st.memoryWrites ∧ st'.stackWrites = st.stackWrites ∧
    st'.globalWrites = st.globalWrites ∧ st'.heapWrites = st.heapWrites ∧
    st'.argWrites = st.argWrites ∧ st'.heapOrArgWrites = st.heapOrArgWrites
  sites : st.noDeadRegSite ≤ st.deadRegSite → st'.noDeadRegSite ≤ st'.deadRegSite

theorem SitesOnly.account {f : BFunc} {p : Plan} {st st1 st' : Stats} (h : SitesOnly st1 st')
    (h1 : st1.totalFunc = st.totalFunc)
    (h2 : st1.safeFns = st.safeFns ++ p.tag [.skipped] f.name)
    (h3 : st1.loweredFns = st.loweredFns ++ p.tag [.lowered, .fastPath] f.name)
    (h4 : st1.regStackFns = st.regStackFns ++ p.tag [.regFrame] f.name)
    (h5 : st1.withIndirectOrPlt = st.withIndirectOrPlt ∧ st1.withIndirect = st.withIndirect ∧
      st1.withPlt = st.withPlt)
    (h6 : st1.memoryWrites = st.memoryWrites ∧ st1.stackWrites = st.stackWrites ∧
      st1.globalWrites = st.globalWrites ∧ st1.heapWrites = st.heapWrites ∧
      st1.argWrites = st.argWrites ∧ st1.heapOrArgWrites = st.heapOrArgWrites)
    (h7 : st1.noDeadRegSite = st.noDeadRegSite) (h8 : st1.deadRegSite = st.deadRegSite) :
    Account f p st st' := by
  have hr := h.rest
  have a := h.all
  have b := h.none
  have c := h.mono
  refine ⟨?_, ?_, ?_, ?_, ?_, ?_, fun k => by omega⟩
  · rw [hr]; exact h1
  · rw [hr]; exact h2
  · rw [hr]; exact h3
  · rw [hr]; exact h4
  · rw [hr]; exact h5
  · rw [hr]; exact h6

theorem light_spec {fl : InstrFlags} {co : CodeObj} {f : BFunc} {s : Option FuncSummary}
    {st st' : Stats} {p : Plan} (h : instrumentLight fl co f s st = some (p, st')) :
    Strategy fl co f s p ∧ Account f p st st' := by
  unfold instrumentLight at h
  simp only [Option.bind_eq_bind, Option.bind_eq_some_iff] at h
  obtain ⟨r, hr, h⟩ := h
  cases r with
  | some L =>
    dsimp only at h
    cases h
    exact ⟨.lowered hr, (SitesOnly.refl _).account rfl (by simp [Plan.tag, Plan.kind])
      (by simp [Plan.tag, Plan.kind]) (by simp [Plan.tag, Plan.kind]) ⟨rfl, rfl, rfl⟩
      ⟨rfl, rfl, rfl, rfl, rfl, rfl⟩ rfl rfl⟩
  | none =>
    dsimp only at h
    split at h
    · rename_i hu
      cases h
      obtain ⟨k1, s', k2, k3, k4, k5, k6⟩ := (useRegFrame_iff fl s).mp hu
      exact ⟨.regFrame hr k2 k1 k3 k4 k5 k6, (SitesOnly.refl _).account rfl
        (by simp [Plan.tag, Plan.kind]) (by simp [Plan.tag, Plan.kind])
        (by simp [Plan.tag, Plan.kind]) ⟨rfl, rfl, rfl⟩ ⟨rfl, rfl, rfl, rfl, rfl, rfl⟩ rfl rfl⟩
    · rename_i hu
      split at h
      · rename_i s' slow xs hfp
        simp only [Option.bind_eq_some_iff] at h
        obtain ⟨⟨pushes, st1⟩, h1, ⟨checks, st2⟩, h2, h⟩ := h
        dsimp only at h h1 h2
        split at h
        · rename_i p
          cases h
          obtain ⟨i1, i2⟩ := planPushes_spec _ _ h1
          obtain ⟨j1, j2⟩ := planChecks_spec _ _ h2 (by simp)
          refine ⟨.fastPath hr rfl hfp (by simpa using i2 (by simp))
            (by simpa [Function.comp_def] using j2), ?_⟩
          exact (i1.trans j1).account rfl (by simp [Plan.tag, Plan.kind])
            (by simp [Plan.tag, Plan.kind]) (by simp [Plan.tag, Plan.kind]) ⟨rfl, rfl, rfl⟩
            ⟨rfl, rfl, rfl, rfl, rfl, rfl⟩ rfl rfl
        · cases h
      · rename_i hfp
        simp only [Option.bind_eq_some_iff] at h
        obtain ⟨⟨pushes, st1⟩, h1, ⟨checks, st2⟩, h2, h⟩ := h
        cases h
        obtain ⟨hs, i2⟩ := planPushes_spec _ _ h1
        obtain ⟨j1, j2⟩ := planChecks_spec _ _ h2 (by simp)
        refine ⟨.entryExit hr ?_ ?_ ?_, ?_⟩
        · intro hsome
          obtain ⟨s', hs'⟩ := Option.isSome_iff_exists.mp hsome
          cases hc : checkFastPath fl.disableLowering f.cfg with
          | none => rfl
          | some r => exact absurd hc (hfp s' r.1 r.2 hs')
        · intro hone
          simpa [Function.comp_def] using i2 (by
            simp only [List.mem_map]
            rintro p ⟨b, hb, rfl⟩ _ c hc
            exact hone c hc b hb)
        · simpa [Function.comp_def, insertExits] using j2
        · exact (hs.trans j1).account rfl (by simp [Plan.tag, Plan.kind])
            (by simp [Plan.tag, Plan.kind]) (by simp [Plan.tag, Plan.kind]) ⟨rfl, rfl, rfl⟩
            ⟨rfl, rfl, rfl, rfl, rfl, rfl⟩ rfl rfl

/-! ## C40, C41 -/

theorem countWrites_rest (a : Bool) : ∀ (ws : List WriteInfo) (st st' : Stats),
    countWrites a ws st = some st' →
    st' = { st with
      memoryWrites := st.memoryWrites + ws.length
      stackWrites := st.stackWrites + ws.countP (·.stack)
      globalWrites := st.globalWrites + ws.countP (·.global)
      heapWrites := st.heapWrites + ws.countP (·.heap)
      argWrites := st.argWrites + ws.countP (·.arg)
      heapOrArgWrites := st.heapOrArgWrites + ws.countP (·.heapOrArg) } ∧
    (a = true → ∀ w ∈ ws, w.types ≤ 1) := by
  intro ws
  induction ws with
  | nil => intro st st' h; cases h; simp
  | cons w ws ih =>
    intro st st' h
    simp only [countWrites] at h
    split at h
    · cases h
    rename_i hw
    obtain ⟨h1, h2⟩ := ih _ _ h
    refine ⟨?_, ?_⟩
    · rw [h1]
      have hb : ∀ (b : Bool) (n m : Nat), n + b.toNat + m = n + (m + if b = true then 1 else 0) := by
        intro b n m; cases b <;> simp <;> omega
      simp only [List.countP_cons, List.length_cons, hb, Stats.mk.injEq, true_and, and_true]
      omega
    · intro ha w' hw'
      rcases List.mem_cons.mp hw' with rfl | hw'
      · simp [ha] at hw; omega
      · exact h2 ha w' hw'

/-- The summary of `f`, if the analyses ran. -/
def summaryOf (fl : InstrFlags) (an : Nat → Option (FuncSummary × List WriteInfo)) (f : BFunc) :
    Option FuncSummary :=
  if fl.shadowStack = "light" then (an f.base).map Prod.fst else none

/-- **C40.** In light mode a function is skipped exactly if safe function elision is on and it is
classified safe or listed; otherwise it is treated by one of the four strategies, in the order
lowering, register frame, fast path, entry and exit.  In other modes every function is
instrumented at its entries and at its exits that return. -/
theorem C40_strategy {fl : InstrFlags} {skip : List Nat} {co : CodeObj}
    {an : Nat → Option (FuncSummary × List WriteInfo)} {f : BFunc} {st st' : Stats} {p : Plan}
    (h : instrumentFunction fl skip co an f st = some (p, st')) :
    (fl.shadowStack = "light" →
      (p.kind = .skipped ↔ fl.disableSfe = false ∧
        ((∃ s, summaryOf fl an f = some s ∧ s.safe = true) ∨ f.base ∈ skip)) ∧
      (p.kind ≠ .skipped → Strategy fl co f (summaryOf fl an f) p)) ∧
    (fl.shadowStack ≠ "light" → p = .full f.entryPoints
      (f.exitPoints.filter fun b => !isNonreturningCall (co.targets b))) := by
  unfold instrumentFunction at h
  dsimp only at h
  split at h
  · rename_i hl
    refine ⟨fun _ => ?_, fun hn => absurd hl hn⟩
    have hsum : summaryOf fl an f = (an f.base).map Prod.fst := if_pos hl
    rw [hsum]
    split at h
    · cases h
    rename_i st1 _
    have hsk : skippable fl skip f ((an f.base).map Prod.fst) = true ↔ fl.disableSfe = false ∧
        ((∃ s, (an f.base).map Prod.fst = some s ∧ s.safe = true) ∨ f.base ∈ skip) := by
      unfold skippable
      cases fl.disableSfe with
      | true => simp
      | false =>
        cases (an f.base).map Prod.fst with
        | none => simp
        | some s => cases hs : s.safe <;> simp [hs]
    split at h
    · rename_i hs
      cases h
      exact ⟨⟨fun _ => hsk.mp hs, fun _ => rfl⟩, fun hn => absurd rfl hn⟩
    · rename_i hs
      obtain ⟨k1, _⟩ := light_spec h
      refine ⟨⟨fun hk => ?_, fun hk => absurd (hsk.mpr hk) hs⟩, fun _ => k1⟩
      cases k1 <;> cases hk
  · rename_i hl
    cases h
    exact ⟨fun hn => absurd hn hl, fun _ => rfl⟩

/-- **C41, what holds.** In light mode with safe function elision a listed function is left
alone.  Missing: the other modes, where the list is ignored. -/
theorem C41_skip_list_partial {fl : InstrFlags} {skip : List Nat} {co : CodeObj}
    {an : Nat → Option (FuncSummary × List WriteInfo)} {f : BFunc} {st st' : Stats} {p : Plan}
    (h : instrumentFunction fl skip co an f st = some (p, st')) (hl : fl.shadowStack = "light")
    (hd : fl.disableSfe = false) (hf : f.base ∈ skip) : p = .skipped := by
  have := (((C40_strategy h).1 hl).1.mpr ⟨hd, .inr hf⟩)
  cases p <;> first | rfl | cases this

/-- A function of one block. -/
def tinyCode : CodeObj where
  funcs := [0]
  addr := fun _ => 4096
  entry := fun _ => 0
  blocks := fun _ => [0]
  exitBlocks := fun _ => [0]
  targets := fun _ => []
  start := fun b => 4096 + 16 * b
  last := fun b => 4096 + 16 * b + 8
  funcsAt := fun _ => [0]
  linkage := fun _ => none

/-- The same function as BPatch shows it. -/
def tinyFunc : BFunc where
  func := 0
  name := "f"
  base := 4096
  cfg := { entries := [0], exits := [0], blocks := [0], out := fun _ => [],
           writes := fun _ => [], returns := fun _ => [] }
  entryPoints := [0]
  exitPoints := [0]
  start := fun b => 4096 + 16 * b
  isInsn := fun _ _ => true

example : (instrumentFunction {} [4096] tinyCode (fun _ => some ({}, [])) tinyFunc {}).map
    (fun r => (r.1.kind, r.2.safeFns)) = some (.skipped, ["f"]) := by decide

example : (instrumentFunction {} [] tinyCode (fun _ => some ({}, [])) tinyFunc {}).map
    (fun r => (r.1.kind, r.2.safeFns)) = some (.entryExit, []) := by decide

example : (instrumentFunction {} [] tinyCode (fun _ => some ({ unusedRegs := ["x"] }, [])) tinyFunc
    {}).map (fun r => r.1.kind) = some .regFrame := by decide

/-- **C41 is false in general**: with `--disable_sfe`, and in full mode, a listed function is
instrumented. -/
theorem C41_refuted :
    (∃ (fl : InstrFlags) (p : Plan) (st : Stats), fl.shadowStack = "light" ∧
      instrumentFunction fl [4096] tinyCode (fun _ => none) tinyFunc {} = some (p, st) ∧
      tinyFunc.base ∈ [4096] ∧ p.kind = .entryExit) ∧
    (∃ (fl : InstrFlags) (p : Plan) (st : Stats), fl.disableSfe = false ∧
      instrumentFunction fl [4096] tinyCode (fun _ => none) tinyFunc {} = some (p, st) ∧
      tinyFunc.base ∈ [4096] ∧ p.kind = .full) :=
  ⟨⟨{ disableSfe := true }, _, _, rfl, rfl, by decide, rfl⟩,
    ⟨{ shadowStack := "full" }, _, _, rfl, rfl, by decide, rfl⟩⟩

/-! ## C39 -/

/-- The blocks at whose exit the plan checks. -/
def Plan.checkBlocks : Plan → List Blk
  | .skipped => []
  | .lowered L => L.pops.map Prod.fst
  | .regFrame _ l => l
  | .fastPath _ l => l.map fun x => x.1.blk
  | .entryExit _ l => l.map fun x => x.1.blk
  | .full _ l => l

/-- **C39, what holds.** Except on the fast path, no check is at a block that ends in a call
that does not return, and every other exit of the function has one.  Missing: the fast path,
where it is false. -/
theorem C39_nonreturning_partial {fl : InstrFlags} {skip : List Nat} {co : CodeObj}
    {an : Nat → Option (FuncSummary × List WriteInfo)} {f : BFunc} {st st' : Stats} {p : Plan}
    (h : instrumentFunction fl skip co an f st = some (p, st')) (hf : p.kind ≠ .fastPath)
    (hs : p.kind ≠ .skipped) (ha : fl.asserts = true) (b : Blk) :
    b ∈ p.checkBlocks ↔ isNonreturningCall (co.targets b) = false ∧
      b ∈ (if p.kind = .lowered then co.exitBlocks f.func else f.exitPoints) := by
  have hmem : b ∈ (f.exitPoints.filter fun b => !isNonreturningCall (co.targets b)) ↔
      isNonreturningCall (co.targets b) = false ∧ b ∈ f.exitPoints := by
    simp [List.mem_filter, and_comm]
  by_cases hl : fl.shadowStack = "light"
  · have hst := ((C40_strategy h).1 hl).2 hs
    cases hst with
    | lowered h1 =>
      simp only [Plan.checkBlocks, Plan.kind, if_pos]
      cases hsum : summaryOf fl an f with
      | none => rw [hsum] at h1; cases h1
      | some s =>
        rw [hsum] at h1
        obtain ⟨_, _, _, _, _, _, hlf⟩ := low_facts ha h1
        rw [hlf.pops b, and_comm]
    | regFrame => simpa [Plan.checkBlocks, Plan.kind] using hmem
    | fastPath => exact absurd rfl hf
    | entryExit _ _ _ h4 =>
      simp only [Plan.checkBlocks, h4]
      simpa [Plan.kind] using hmem
  · have := (C40_strategy h).2 hl
    subst this
    simpa [Plan.checkBlocks, Plan.kind] using hmem

/-- The function of `fastGraph` in which block 4 ends in a call that does not return. -/
def fastCode : CodeObj where
  funcs := [0]
  addr := fun _ => 4096
  entry := fun _ => 0
  blocks := fun _ => [0, 1, 2, 3, 4]
  exitBlocks := fun _ => [3, 4]
  targets := fun b => if b = 4 then [⟨9, 4, 7, .call, false, true⟩] else fastGraph.out b
  start := fun b => 4096 + 16 * b
  last := fun b => 4096 + 16 * b + 8
  funcsAt := fun _ => [0]
  linkage := fun _ => none

/-- The same function as BPatch shows it. -/
def fastFunc : BFunc where
  func := 0
  name := "g"
  base := 4096
  cfg := fastGraph
  entryPoints := [0]
  exitPoints := [3, 4]
  start := fun b => 4096 + 16 * b
  isInsn := fun _ _ => true

/-- **C39 is false on the fast path**: a check is inserted after a call that does not return. -/
theorem C39_refuted : ∃ (p : Plan) (st : Stats) (b : Blk),
    instrumentFunction {} [] fastCode (fun _ => some ({}, [])) fastFunc {} = some (p, st) ∧
    isNonreturningCall (fastCode.targets b) = true ∧ b ∈ p.checkBlocks := by
  cases h : instrumentFunction {} [] fastCode (fun _ => some ({}, [])) fastFunc {} with
  | none =>
    exact absurd h (by
      have : (instrumentFunction {} [] fastCode (fun _ => some ({}, [])) fastFunc {}).isSome = true := by
        decide
      intro h; rw [h] at this; cases this)
  | some r =>
    refine ⟨r.1, r.2, 4, rfl, by decide, ?_⟩
    have : (instrumentFunction {} [] fastCode (fun _ => some ({}, [])) fastFunc {}).map
        (fun r => r.1.checkBlocks.contains 4) = some true := by decide
    rw [h] at this
    simpa using this

/-! ## C42 -/

/-- The functions the tool must consider, straight from the flags. -/
def InScope (fl : InstrFlags) (objs : List BObject) (f : BFunc) : Prop :=
  ∃ o ∈ objs, (fl.libs = true ∨ ¬ ".so".toList <:+: o.path.toList) ∧
    ¬ (fl.threatModel = "trust_system" ∧
      ("libm.so.6".toList <:+: o.path.toList ∨ "libc.so.6".toList <:+: o.path.toList ∨
       "libpthread.so.0".toList <:+: o.path.toList ∨
       "ld-linux-x86-64.so.2".toList <:+: o.path.toList)) ∧
    (∃ m ∈ o.modules, f ∈ m) ∧ f.noReturn = false ∧ f.region = ".text"

/-- What is true of the results at any time. -/
structure Books (asserts : Bool) (l : List (BFunc × Plan)) (st : Stats) : Prop where
  total : st.totalFunc = l.length
  safe : st.safeFns = (l.filter fun x => x.2.kind ∈ [PlanKind.skipped]).map fun x => x.1.name
  lowered : st.loweredFns =
    (l.filter fun x => x.2.kind ∈ [PlanKind.lowered, PlanKind.fastPath]).map fun x => x.1.name
  reg : st.regStackFns = (l.filter fun x => x.2.kind ∈ [PlanKind.regFrame]).map fun x => x.1.name
  calls : st.withIndirect ≤ st.withIndirectOrPlt ∧ st.withPlt ≤ st.withIndirectOrPlt ∧
    st.withIndirectOrPlt ≤ st.withIndirect + st.withPlt ∧ st.withIndirectOrPlt ≤ st.totalFunc
  writes : asserts = true → st.stackWrites + st.globalWrites + st.heapWrites + st.argWrites +
    st.heapOrArgWrites ≤ st.memoryWrites
  sites : st.noDeadRegSite ≤ st.deadRegSite

theorem types_sum (ws : List WriteInfo) (h : ∀ w ∈ ws, w.types ≤ 1) :
    ws.countP (·.stack) + ws.countP (·.global) + ws.countP (·.heap) + ws.countP (·.arg) +
      ws.countP (·.heapOrArg) + ws.countP (fun w => w.types = 0) = ws.length := by
  induction ws with
  | nil => rfl
  | cons w ws ih =>
    have i := ih fun x hx => h x (List.mem_cons_of_mem _ hx)
    have hw := h w List.mem_cons_self
    obtain ⟨a, b, c, d, e⟩ := w
    simp only [List.countP_cons, List.length_cons]
    generalize ws.countP (·.stack) = n1 at i ⊢
    generalize ws.countP (·.global) = n2 at i ⊢
    generalize ws.countP (·.heap) = n3 at i ⊢
    generalize ws.countP (·.arg) = n4 at i ⊢
    generalize ws.countP (·.heapOrArg) = n5 at i ⊢
    generalize ws.countP (fun w => decide (w.types = 0)) = n6 at i ⊢
    cases a <;> cases b <;> cases c <;> cases d <;> cases e <;>
      first
      | (simp [WriteInfo.types] at hw; done)
      | (simp [WriteInfo.types]; omega)

theorem filter_tag (ks : List PlanKind) (l : List (BFunc × Plan)) (f : BFunc) (p : Plan) :
    ((l ++ [(f, p)]).filter fun x => x.2.kind ∈ ks).map (fun x => x.1.name) =
      (l.filter fun x => x.2.kind ∈ ks).map (fun x => x.1.name) ++ p.tag ks f.name := by
  rw [List.filter_append, List.map_append]
  congr 1
  by_cases h : p.kind ∈ ks
  · simp [Plan.tag, h]
  · simp [Plan.tag, h]

theorem books_step {fl : InstrFlags} {skip : List Nat} {co : CodeObj}
    {an : Nat → Option (FuncSummary × List WriteInfo)} {f : BFunc} {st st' : Stats} {p : Plan}
    {l : List (BFunc × Plan)} (hb : Books fl.asserts l st)
    (h : instrumentFunction fl skip co an f st = some (p, st')) :
    Books fl.asserts (l ++ [(f, p)]) st' := by
  have key : ∀ st1 : Stats, Account f p st1 st' → st1.totalFunc = st.totalFunc + 1 →
      st1.safeFns = st.safeFns → st1.loweredFns = st.loweredFns →
      st1.regStackFns = st.regStackFns →
      (st1.withIndirect ≤ st1.withIndirectOrPlt ∧ st1.withPlt ≤ st1.withIndirectOrPlt ∧
        st1.withIndirectOrPlt ≤ st1.withIndirect + st1.withPlt ∧
        st1.withIndirectOrPlt ≤ st1.totalFunc) →
      (fl.asserts = true → st1.stackWrites + st1.globalWrites + st1.heapWrites + st1.argWrites +
        st1.heapOrArgWrites ≤ st1.memoryWrites) → st1.noDeadRegSite ≤ st1.deadRegSite →
      Books fl.asserts (l ++ [(f, p)]) st' := by
    intro st1 a e1 e2 e3 e4 e5 e6 e7
    refine ⟨?_, ?_, ?_, ?_, ?_, ?_, a.sites e7⟩
    · rw [a.total, e1, hb.total]; simp
    · rw [a.safe, e2, hb.safe, filter_tag]
    · rw [a.lowered, e3, hb.lowered, filter_tag]
    · rw [a.reg, e4, hb.reg, filter_tag]
    · obtain ⟨c1, c2, c3⟩ := a.calls
      rw [c1, c2, c3, a.total]; exact e5
    · obtain ⟨c1, c2, c3, c4, c5, c6⟩ := a.writes
      rw [c1, c2, c3, c4, c5, c6]; exact e6
  unfold instrumentFunction at h
  dsimp only at h
  split at h
  · split at h
    · cases h
    rename_i st1 hst
    have facts : st1.totalFunc = st.totalFunc + 1 ∧
        st1.safeFns = st.safeFns ∧ st1.loweredFns = st.loweredFns ∧
        st1.regStackFns = st.regStackFns ∧
        (st1.withIndirect ≤ st1.withIndirectOrPlt ∧ st1.withPlt ≤ st1.withIndirectOrPlt ∧
          st1.withIndirectOrPlt ≤ st1.withIndirect + st1.withPlt ∧
          st1.withIndirectOrPlt ≤ st1.totalFunc) ∧
        (fl.asserts = true → st1.stackWrites + st1.globalWrites + st1.heapWrites + st1.argWrites +
          st1.heapOrArgWrites ≤ st1.memoryWrites) ∧ st1.noDeadRegSite ≤ st1.deadRegSite := by
      obtain ⟨c1, c2, c3, c4⟩ := hb.calls
      have hs := hb.sites
      split at hst
      · cases hst
        exact ⟨rfl, rfl, rfl, rfl, ⟨c1, c2, c3, Nat.le_succ_of_le c4⟩, hb.writes, hs⟩
      · rename_i s ws _
        obtain ⟨k1, k2⟩ := countWrites_rest _ _ _ _ hst
        rw [k1]
        refine ⟨rfl, rfl, rfl, rfl, ?_, ?_, hs⟩
        · simp only [countCalls]
          cases s.hasUnknownCf <;> cases s.pltCalls.isEmpty <;> simp <;> omega
        · intro ha
          have := types_sum ws (k2 ha)
          have := hb.writes ha
          simp only [countCalls]
          omega
    obtain ⟨e1, e2, e3, e4, e5, e6, e7⟩ := facts
    split at h
    · cases h
      exact key st1 ((SitesOnly.refl _).account rfl (by simp [Plan.tag, Plan.kind])
        (by simp [Plan.tag, Plan.kind]) (by simp [Plan.tag, Plan.kind]) ⟨rfl, rfl, rfl⟩
        ⟨rfl, rfl, rfl, rfl, rfl, rfl⟩ rfl rfl) e1 e2 e3 e4 e5 e6 e7
    · exact key st1 (light_spec h).2 e1 e2 e3 e4 e5 e6 e7
  · cases h
    obtain ⟨c1, c2, c3, c4⟩ := hb.calls
    exact key _ ((SitesOnly.refl _).account rfl (by simp [Plan.tag, Plan.kind])
        (by simp [Plan.tag, Plan.kind]) (by simp [Plan.tag, Plan.kind]) ⟨rfl, rfl, rfl⟩
        ⟨rfl, rfl, rfl, rfl, rfl, rfl⟩ rfl rfl) rfl rfl rfl rfl
        ⟨c1, c2, c3, Nat.le_succ_of_le c4⟩ hb.writes hb.sites

/-- What the loops do: they keep the books, and add exactly the functions selected by `sel`,
each with the result of `instrumentFunction` for it. -/
structure Added (fl : InstrFlags) (skip : List Nat) (sel : BFunc → Prop)
    (src : BFunc → CodeObj → (Nat → Option (FuncSummary × List WriteInfo)) → Prop)
    (r r' : List (BFunc × Plan) × Stats) : Prop where
  books : Books fl.asserts r.1 r.2 → Books fl.asserts r'.1 r'.2
  news : ∃ l, r'.1 = r.1 ++ l ∧ (∀ f, (∃ p, (f, p) ∈ l) ↔ sel f) ∧
    ∀ x ∈ l, ∃ co an st st', src x.1 co an ∧
      instrumentFunction fl skip co an x.1 st = some (x.2, st')

theorem Added.weaken {fl : InstrFlags} {skip : List Nat} {sel sel' : BFunc → Prop}
    {src src' : BFunc → CodeObj → (Nat → Option (FuncSummary × List WriteInfo)) → Prop}
    {r r' : List (BFunc × Plan) × Stats} (h : Added fl skip sel src r r')
    (hs : ∀ f, sel f ↔ sel' f) (hi : ∀ f co an, sel f → src f co an → src' f co an) :
    Added fl skip sel' src' r r' := by
  obtain ⟨h1, l, h2, h3, h4⟩ := h
  refine ⟨h1, l, h2, fun f => (h3 f).trans (hs f), fun x hx => ?_⟩
  obtain ⟨co, an, st, st', k1, k2⟩ := h4 x hx
  exact ⟨co, an, st, st', hi _ _ _ ((h3 x.1).mp ⟨x.2, hx⟩) k1, k2⟩

theorem Added.refl {fl : InstrFlags} {skip : List Nat} {sel : BFunc → Prop}
    {src : BFunc → CodeObj → (Nat → Option (FuncSummary × List WriteInfo)) → Prop}
    {r : List (BFunc × Plan) × Stats} (h : ∀ f, ¬ sel f) : Added fl skip sel src r r :=
  ⟨id, [], by simp, by simp [h], by simp⟩

theorem Added.trans {fl : InstrFlags} {skip : List Nat} {sel sel' : BFunc → Prop}
    {src : BFunc → CodeObj → (Nat → Option (FuncSummary × List WriteInfo)) → Prop}
    {r r' r'' : List (BFunc × Plan) × Stats} (h : Added fl skip sel src r r')
    (h' : Added fl skip sel' src r' r'') :
    Added fl skip (fun f => sel f ∨ sel' f) src r r'' := by
  obtain ⟨h1, l, h2, h3, h4⟩ := h
  obtain ⟨h1', l', h2', h3', h4'⟩ := h'
  refine ⟨fun hb => h1' (h1 hb), l ++ l', by rw [h2', h2, List.append_assoc], fun f => ?_, ?_⟩
  · rw [← h3 f, ← h3' f]
    simp only [List.mem_append]
    constructor
    · rintro ⟨p, hp | hp⟩
      · exact .inl ⟨p, hp⟩
      · exact .inr ⟨p, hp⟩
    · rintro (⟨p, hp⟩ | ⟨p, hp⟩)
      · exact ⟨p, .inl hp⟩
      · exact ⟨p, .inr hp⟩
  · intro x hx
    rcases List.mem_append.mp hx with hx | hx
    · exact h4 x hx
    · exact h4' x hx

theorem Added.loop {α : Type} {fl : InstrFlags} {skip : List Nat} {sel : α → BFunc → Prop}
    {src : BFunc → CodeObj → (Nat → Option (FuncSummary × List WriteInfo)) → Prop}
    {step : List (BFunc × Plan) × Stats → α → Option (List (BFunc × Plan) × Stats)} :
    ∀ (as : List α), (∀ a ∈ as, ∀ r r', step r a = some r' → Added fl skip (sel a) src r r') →
    ∀ r r', as.foldlM step r = some r' → Added fl skip (fun f => ∃ a ∈ as, sel a f) src r r' := by
  intro as
  induction as with
  | nil =>
    intro _ r r' h
    cases h
    exact .refl (by simp)
  | cons a as ih =>
    intro hs r r' h
    rw [List.foldlM_cons, Option.bind_eq_bind, Option.bind_eq_some_iff] at h
    obtain ⟨r1, h1, h2⟩ := h
    exact ((hs a List.mem_cons_self r r1 h1).trans
      (ih (fun x hx => hs x (List.mem_cons_of_mem _ hx)) r1 r' h2)).weaken (by simp)
      (fun _ _ _ _ h => h)

theorem module_added {fl : InstrFlags} {skip : List Nat} {co : CodeObj}
    {an : Nat → Option (FuncSummary × List WriteInfo)} {f : BFunc}
    {r r' : List (BFunc × Plan) × Stats} (h : moduleStep fl skip co an r f = some r') :
    Added fl skip (fun g => g = f ∧ f.noReturn = false ∧ f.region = ".text")
      (fun _ co' an' => co' = co ∧ an' = an) r r' := by
  unfold moduleStep at h
  split at h
  · rename_i hn
    cases h
    exact .refl (by simp [hn])
  rename_i hn
  split at h
  · rename_i hr
    cases h
    exact .refl (by simp [hr])
  rename_i hr
  rw [Option.map_eq_some_iff] at h
  obtain ⟨⟨p, st⟩, h1, h2⟩ := h
  cases h2
  refine ⟨fun hb => books_step hb h1, [(f, p)], rfl, fun g => ?_, fun x hx => ?_⟩
  · have hn : f.noReturn = false := by simpa using hn
    have hr : f.region = ".text" := by simpa using hr
    simp [hn, hr]
  · obtain rfl := List.mem_singleton.mp hx
    exact ⟨co, an, r.2, st, ⟨rfl, rfl⟩, h1⟩

theorem isSystemCode_iff (p : String) : isSystemCode p = true ↔
    ("libm.so.6".toList <:+: p.toList ∨ "libc.so.6".toList <:+: p.toList ∨
       "libpthread.so.0".toList <:+: p.toList ∨ "ld-linux-x86-64.so.2".toList <:+: p.toList) := by
  unfold isSystemCode
  simp only [← strFind_some]
  cases (strFind p.toList "libm.so.6".toList).isSome <;>
  cases (strFind p.toList "libc.so.6".toList).isSome <;>
  cases (strFind p.toList "libpthread.so.0".toList).isSome <;>
  cases (strFind p.toList "ld-linux-x86-64.so.2".toList).isSome <;> simp

theorem instrument_added {fl : InstrFlags} {skip : List Nat} {objs : List BObject}
    {r : List (BFunc × Plan) × Stats} (h : instrument fl skip objs = some r) :
    Added fl skip (InScope fl objs)
      (fun f co an => ∃ o ∈ objs, (∃ m ∈ o.modules, f ∈ m) ∧ co = o.code ∧
        an = if fl.shadowStack = "light" then o.analyses else fun _ => none) ([], {}) r := by
  refine (Added.loop (sel := fun o f => (fl.libs = true ∨ ¬ ".so".toList <:+: o.path.toList) ∧
    ¬ (fl.threatModel = "trust_system" ∧ isSystemCode o.path = true) ∧
    (∃ m ∈ o.modules, f ∈ m) ∧ f.noReturn = false ∧ f.region = ".text")
    (src := fun f co an => ∃ o ∈ objs, (∃ m ∈ o.modules, f ∈ m) ∧ co = o.code ∧
        an = if fl.shadowStack = "light" then o.analyses else fun _ => none)
    objs ?_ _ _ h).weaken ?_ ?_
  · intro o ho r r' hs
    have hshared : isSharedLibrary o.path = true ↔ ".so".toList <:+: o.path.toList := by
      rw [isSharedLibrary, strFind_some]
    split at hs
    · rename_i hc
      cases hs
      simp only [Bool.and_eq_true, Bool.not_eq_true', hshared] at hc
      refine .refl (fun f k => ?_)
      rcases k.1 with k | k
      · rw [hc.1] at k; cases k
      · exact k hc.2
    · rename_i hc
      have hc' : fl.libs = true ∨ ¬ ".so".toList <:+: o.path.toList := by
        rw [← hshared]
        cases hlib : fl.libs
        · right; intro hsh; exact hc (by simp [hlib, hsh])
        · exact .inl rfl
      unfold instrumentObject at hs
      split at hs
      · rename_i hsys
        cases hs
        exact .refl (fun f k => k.2.1 hsys)
      · rename_i hsys
        refine (Added.loop (sel := fun m f => f ∈ m ∧ f.noReturn = false ∧ f.region = ".text")
          (src := fun f co an => ∃ o ∈ objs, (∃ m ∈ o.modules, f ∈ m) ∧ co = o.code ∧
            an = if fl.shadowStack = "light" then o.analyses else fun _ => none)
          o.modules ?_ _ _ hs).weaken ?_ (fun _ _ _ _ h => h)
        · intro m hm r r' hs
          refine (Added.loop (sel := fun f g => g = f ∧ f.noReturn = false ∧ f.region = ".text")
            (src := fun _ co an => co = o.code ∧
              an = if fl.shadowStack = "light" then o.analyses else fun _ => none)
            m (fun f _ r r' h => module_added h) _ _ hs).weaken ?_ ?_
          · intro f
            constructor
            · rintro ⟨a, ha, rfl, k⟩; exact ⟨ha, k⟩
            · rintro ⟨ha, k⟩; exact ⟨f, ha, rfl, k⟩
          · rintro f co an ⟨g, hg, rfl, _⟩ ⟨k1, k2⟩
            exact ⟨o, ho, ⟨m, hm, hg⟩, k1, k2⟩
        · intro f
          constructor
          · rintro ⟨m, hm, hf, k⟩; exact ⟨hc', hsys, ⟨m, hm, hf⟩, k⟩
          · rintro ⟨_, _, ⟨m, hm, hf⟩, k⟩; exact ⟨m, hm, hf, k⟩
  · intro f
    simp only [InScope, isSystemCode_iff]
  · exact fun _ _ _ _ h => h

/-- **C42, what holds.** The functions considered are exactly those in scope.  Missing: that the
main program is in scope, which is false if its path contains `.so`. -/
theorem C42_scope_partial {fl : InstrFlags} {skip : List Nat} {objs : List BObject}
    {l : List (BFunc × Plan)} {st : Stats} (h : instrument fl skip objs = some (l, st)) (f : BFunc) :
    (∃ p, (f, p) ∈ l) ↔ InScope fl objs f := by
  obtain ⟨_, l', h1, h2, _⟩ := instrument_added h
  obtain rfl : l = l' := by simpa using h1
  exact h2 f

/-- Each considered function was treated by `InstrumentFunction` with the analyses of its own
code object. -/
theorem C42_each {fl : InstrFlags} {skip : List Nat} {objs : List BObject}
    {l : List (BFunc × Plan)} {st : Stats} (h : instrument fl skip objs = some (l, st)) :
    ∀ x ∈ l, ∃ o ∈ objs, (∃ m ∈ o.modules, x.1 ∈ m) ∧ ∃ st1 st2, instrumentFunction fl skip o.code
      (if fl.shadowStack = "light" then o.analyses else fun _ => none) x.1 st1 = some (x.2, st2) := by
  obtain ⟨_, l', h1, _, h3⟩ := instrument_added h
  obtain rfl : l = l' := by simpa using h1
  intro x hx
  obtain ⟨co, an, st1, st2, ⟨o, ho, hm, rfl, rfl⟩, k⟩ := h3 x hx
  exact ⟨o, ho, hm, st1, st2, k⟩

/-- A program consisting of `tinyFunc`. -/
def tinyObj (path : String) : BObject where
  path := path
  modules := [[tinyFunc]]
  code := tinyCode
  analyses := fun _ => some ({}, [{ stack := true }, {}])

example : (instrument {} [] [tinyObj "/bin/prog", tinyObj "/lib/libc.so.6"]).map
    (fun r => (r.1.map (fun x => x.2.kind), r.2.memoryWrites, r.2.stackWrites)) =
    some ([.entryExit], 2, 1) := by decide

/-- **C42 is false for the main program**: in a directory whose name contains `.so` it is
silently left without protection. -/
theorem C42_refuted : ∃ st, instrument {} [] [tinyObj "/home/me.software/prog"] = some ([], st) :=
  ⟨_, rfl⟩

/-! ## C43, C44 and the other reported numbers -/

theorem books_start (a : Bool) : Books a [] {} :=
  ⟨rfl, rfl, rfl, rfl, ⟨by simp, by simp, by simp, by simp⟩, fun _ => by simp, by simp⟩

/-- **C43, what holds.** With assertions compiled in, the reported number of unknown writes is
not negative and the numbers add up.  Missing: without assertions the number may be
negative. -/
theorem C43_write_statistics_partial {fl : InstrFlags} {skip : List Nat} {objs : List BObject}
    {l : List (BFunc × Plan)} {st : Stats} (h : instrument fl skip objs = some (l, st))
    (ha : fl.asserts = true) :
    0 ≤ st.unknownWrites ∧ (st.stackWrites : Int) + st.globalWrites + st.heapWrites + st.argWrites +
      st.heapOrArgWrites + st.unknownWrites = st.memoryWrites := by
  have := ((instrument_added h).books (books_start _)).writes ha
  dsimp only at this
  unfold Stats.unknownWrites
  omega

/-- What is counted for one function: each write once, under its type if it has one. -/
theorem C43_counts (ws : List WriteInfo) (st st' : Stats) (h : countWrites true ws st = some st') :
    st'.memoryWrites = st.memoryWrites + ws.length ∧
    st'.stackWrites = st.stackWrites + ws.countP (·.stack) ∧
    st'.globalWrites = st.globalWrites + ws.countP (·.global) ∧
    st'.heapWrites = st.heapWrites + ws.countP (·.heap) ∧
    st'.argWrites = st.argWrites + ws.countP (·.arg) ∧
    st'.heapOrArgWrites = st.heapOrArgWrites + ws.countP (·.heapOrArg) ∧
    st'.unknownWrites = st.unknownWrites + ws.countP (fun w => w.types = 0) := by
  obtain ⟨h1, h2⟩ := countWrites_rest _ _ _ _ h
  have := types_sum ws (h2 rfl)
  rw [h1]
  refine ⟨rfl, rfl, rfl, rfl, rfl, rfl, ?_⟩
  simp only [Stats.unknownWrites]
  omega

/-- The tool stops with a failed assertion exactly if some write has two types. -/
theorem C43_stops (ws : List WriteInfo) (st : Stats) :
    countWrites true ws st = none ↔ ∃ w ∈ ws, 2 ≤ w.types := by
  induction ws generalizing st with
  | nil => simp [countWrites]
  | cons w ws ih =>
    by_cases hw : 2 ≤ w.types
    · simp [countWrites, hw]
    · simp only [countWrites, hw, decide_false, Bool.and_false, Bool.false_eq_true, if_false, ih,
        List.mem_cons]
      constructor
      · rintro ⟨x, hx, k⟩; exact ⟨x, .inr hx, k⟩
      · rintro ⟨x, rfl | hx, k⟩
        · exact absurd k hw
        · exact ⟨x, hx, k⟩

/-- **C43 is false without assertions.** -/
theorem C43_refuted : ∃ st, instrument { asserts := false } []
    [{ tinyObj "/bin/prog" with analyses := fun _ => some ({}, [{ stack := true, global := true }]) }] =
      some ([(tinyFunc, .entryExit [(⟨.entry, 0, 0⟩, .stack false 0 false)]
        [(⟨.exit, 0, 0⟩, .stack false)])], st) ∧ st.unknownWrites < 0 :=
  ⟨_, rfl, by decide⟩

theorem kinds_sum (l : List (BFunc × Plan)) :
    l.countP (fun x => decide (x.2.kind ∈ [PlanKind.skipped])) +
      l.countP (fun x => decide (x.2.kind ∈ [PlanKind.lowered, PlanKind.fastPath])) +
      l.countP (fun x => decide (x.2.kind ∈ [PlanKind.regFrame])) +
      l.countP (fun x => decide (x.2.kind = .entryExit ∨ x.2.kind = .full)) = l.length := by
  induction l with
  | nil => rfl
  | cons x l ih =>
    simp only [List.countP_cons, List.length_cons]
    generalize l.countP (fun x => decide (x.2.kind ∈ [PlanKind.skipped])) = n1 at ih ⊢
    generalize l.countP (fun x => decide (x.2.kind ∈ [PlanKind.lowered, PlanKind.fastPath])) = n2
      at ih ⊢
    generalize l.countP (fun x => decide (x.2.kind ∈ [PlanKind.regFrame])) = n3 at ih ⊢
    generalize l.countP (fun x => decide (x.2.kind = .entryExit ∨ x.2.kind = .full)) = n4 at ih ⊢
    cases hk : x.2.kind <;> simp <;> omega

/-- The numbers of functions printed at the end: one list of names per treatment, and together
with the functions instrumented at entry and exit they make up the total. -/
theorem C40_totals {fl : InstrFlags} {skip : List Nat} {objs : List BObject}
    {l : List (BFunc × Plan)} {st : Stats} (h : instrument fl skip objs = some (l, st)) :
    st.totalFunc = l.length ∧
    st.safeFns = (l.filter fun x => x.2.kind = .skipped).map (fun x => x.1.name) ∧
    st.safeFns.length + st.loweredFns.length + st.regStackFns.length +
      l.countP (fun x => x.2.kind = .entryExit ∨ x.2.kind = .full) = st.totalFunc ∧
    st.withIndirect ≤ st.withIndirectOrPlt ∧ st.withPlt ≤ st.withIndirectOrPlt ∧
    st.withIndirectOrPlt ≤ st.withIndirect + st.withPlt ∧ st.withIndirectOrPlt ≤ st.totalFunc ∧
    st.noDeadRegSite ≤ st.deadRegSite := by
  obtain ⟨b1, b2, b3, b4, ⟨c1, c2, c3, c4⟩, _, b7⟩ := (instrument_added h).books (books_start _)
  dsimp only at b1 b2 b3 b4 c1 c2 c3 c4 b7
  refine ⟨b1, by rw [b2]; simp, ?_, c1, c2, c3, c4, b7⟩
  rw [b1, b2, b3, b4]
  simp only [List.length_map, ← List.countP_eq_length_filter]
  exact kinds_sum l

theorem eraseDups_length_le : ∀ (l : List String), l.eraseDups.length ≤ l.length := by
  intro l
  induction h : l.length using Nat.strongRecOn generalizing l with
  | _ n ih =>
    cases l with
    | nil => simp
    | cons a l =>
      rw [List.eraseDups_cons]
      have h1 := List.length_filter_le (fun b => !b == a) l
      simp at h
      have := ih _ (by omega) (l.filter fun b => !b == a) rfl
      simp; omega

theorem eraseDups_nodup : ∀ (l : List String), l.Nodup → l.eraseDups = l := by
  intro l
  induction l with
  | nil => intro _; rfl
  | cons a l ih =>
    intro h
    obtain ⟨h1, h2⟩ := List.nodup_cons.mp h
    rw [List.eraseDups_cons]
    have : (l.filter fun b => !b == a) = l := by
      rw [List.filter_eq_self]
      intro b hb
      have : b ≠ a := fun e => h1 (e ▸ hb)
      simpa using this
    rw [this, ih h2]

/-- **C44, what holds.** If the safe functions have distinct names, the statistics file has the
number of safe functions and the number of the others; in general the two numbers add up to the
number of functions and the first is too small by the number of repeated names.  Missing:
repeated names. -/
theorem C44_safe_statistics_partial (funcs : List Func) (safe : Func → Bool) (name : Func → String) :
    let s := safeStats funcs.length ((funcs.filter safe).map name)
    s.1 + s.2 = funcs.length ∧ 0 ≤ s.1 ∧ s.1 ≤ (funcs.filter safe).length ∧
    (((funcs.filter safe).map name).Nodup →
      s.1 = (funcs.countP safe : Nat) ∧ s.2 = (funcs.countP (fun f => !safe f) : Nat)) := by
  have h1 := eraseDups_length_le ((funcs.filter safe).map name)
  simp only [List.length_map] at h1
  have h2 : funcs.countP safe + funcs.countP (fun f => !safe f) = funcs.length := by
    have := List.length_eq_countP_add_countP safe (l := funcs)
    simp only [Bool.not_eq_true, Bool.decide_eq_false] at this
    exact this.symm
  refine ⟨?_, ?_, ?_, fun hn => ?_⟩
  · simp only [safeStats]; omega
  · simp only [safeStats]; omega
  · simp only [safeStats]; omega
  · have h3 := List.countP_eq_length_filter (p := safe) (l := funcs)
    simp only [safeStats, eraseDups_nodup _ hn, List.length_map]
    omega

/-- **C44 is false for functions with equal names**, such as `static` functions of different
files: two safe functions are reported as one safe and one unsafe. -/
theorem C44_refuted : ∃ (funcs : List Func) (safe : Func → Bool) (name : Func → String),
    (funcs.countP safe = 2 ∧ funcs.length = 2) ∧
    safeStats funcs.length ((funcs.filter safe).map name) = (1, 1) :=
  ⟨[0, 1], fun _ => true, fun _ => "init", by decide, by decide⟩

end Verif
