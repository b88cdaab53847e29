import Verif.Report
import Verif.Props.ToolRun

/-!
# C91: the report at the end of a run
-/

namespace Verif

/-! ## What the numbers should count -/

/-- Is the object looked at? -/
def considered (fl : InstrFlags) (o : BObject) : Bool :=
  (fl.libs || !isSharedLibrary o.path) && !(fl.threatModel = "trust_system" && isSystemCode o.path)

theorem considered_iff {fl : InstrFlags} {o : BObject} : considered fl o = true ↔ Considered fl o := by
  have hshared : isSharedLibrary o.path = true ↔ ".so".toList <:+: o.path.toList := by
    rw [isSharedLibrary, strFind_some]
  unfold considered Considered
  rw [← hshared]
  cases fl.libs <;> cases isSharedLibrary o.path <;> cases isSystemCode o.path <;> simp

/-- The functions which the tool treats, with their code objects. -/
def treated (fl : InstrFlags) (objs : List BObject) : List (BObject × BFunc) :=
  (objs.filter (considered fl)).flatMap fun o =>
    (o.modules.flatten.filter fun f => !f.noReturn && f.region = ".text").map fun f => (o, f)

/-- The analyses of a function; there are none in full mode. -/
def analysisOf (fl : InstrFlags) (x : BObject × BFunc) : Option (FuncSummary × List WriteInfo) :=
  if fl.shadowStack = "light" then x.1.analyses x.2.base else none

/-- All writes of the functions. -/
def writesOf (fl : InstrFlags) (xs : List (BObject × BFunc)) : List WriteInfo :=
  xs.flatMap fun x => match analysisOf fl x with
    | some (_, ws) => ws
    | none => []

/-- How many functions have a summary with the property? -/
def countSums (fl : InstrFlags) (P : FuncSummary → Bool) (xs : List (BObject × BFunc)) : Nat :=
  xs.countP fun x => match analysisOf fl x with
    | some (s, _) => P s
    | none => false

/-- Is the function left alone: judged safe, or on the skip list? -/
def leftAlone (fl : InstrFlags) (skip : List Nat) (x : BObject × BFunc) : Bool :=
  fl.shadowStack = "light" && !fl.disableSfe && ((match analysisOf fl x with
    | some (s, _) => s.safe
    | none => false) || decide (x.2.base ∈ skip))

/-! ## Counting -/

/-- What the loops count. -/
structure Tally (fl : InstrFlags) (skip : List Nat) (xs : List (BObject × BFunc))
    (r r' : List (BFunc × Plan) × Stats) : Prop where
  fns : r'.1.map Prod.fst = r.1.map Prod.fst ++ xs.map Prod.snd
  safe : r'.2.safeFns = r.2.safeFns ++ (xs.filter (leftAlone fl skip)).map fun x => x.2.name
  total : r'.2.totalFunc = r.2.totalFunc + xs.length
  both : r'.2.withIndirectOrPlt = r.2.withIndirectOrPlt +
    countSums fl (fun s => s.hasUnknownCf || !s.pltCalls.isEmpty) xs
  indirect : r'.2.withIndirect = r.2.withIndirect + countSums fl (fun s => s.hasUnknownCf) xs
  plt : r'.2.withPlt = r.2.withPlt + countSums fl (fun s => !s.pltCalls.isEmpty) xs
  writes : r'.2.memoryWrites = r.2.memoryWrites + (writesOf fl xs).length
  stack : r'.2.stackWrites = r.2.stackWrites + (writesOf fl xs).countP (·.stack)
  global : r'.2.globalWrites = r.2.globalWrites + (writesOf fl xs).countP (·.global)
  heap : r'.2.heapWrites = r.2.heapWrites + (writesOf fl xs).countP (·.heap)
  arg : r'.2.argWrites = r.2.argWrites + (writesOf fl xs).countP (·.arg)
  heapOrArg : r'.2.heapOrArgWrites = r.2.heapOrArgWrites + (writesOf fl xs).countP (·.heapOrArg)
  types : fl.asserts = true → ∀ w ∈ writesOf fl xs, w.types ≤ 1

theorem Tally.refl {fl : InstrFlags} {skip : List Nat} {r : List (BFunc × Plan) × Stats} :
    Tally fl skip [] r r := by
  constructor <;> simp [countSums, writesOf]

theorem Tally.trans {fl : InstrFlags} {skip : List Nat} {xs ys : List (BObject × BFunc)}
    {r r' r'' : List (BFunc × Plan) × Stats} (h : Tally fl skip xs r r') (h' : Tally fl skip ys r' r'') :
    Tally fl skip (xs ++ ys) r r'' := by
  have hw : writesOf fl (xs ++ ys) = writesOf fl xs ++ writesOf fl ys := List.flatMap_append
  have hc : ∀ P, countSums fl P (xs ++ ys) = countSums fl P xs + countSums fl P ys :=
    fun P => List.countP_append
  constructor
  · rw [h'.fns, h.fns]; simp
  · rw [h'.safe, h.safe]; simp
  · rw [h'.total, h.total, List.length_append, Nat.add_assoc]
  · rw [h'.both, h.both, hc, Nat.add_assoc]
  · rw [h'.indirect, h.indirect, hc, Nat.add_assoc]
  · rw [h'.plt, h.plt, hc, Nat.add_assoc]
  · rw [h'.writes, h.writes, hw, List.length_append, Nat.add_assoc]
  · rw [h'.stack, h.stack, hw, List.countP_append, Nat.add_assoc]
  · rw [h'.global, h.global, hw, List.countP_append, Nat.add_assoc]
  · rw [h'.heap, h.heap, hw, List.countP_append, Nat.add_assoc]
  · rw [h'.arg, h.arg, hw, List.countP_append, Nat.add_assoc]
  · rw [h'.heapOrArg, h.heapOrArg, hw, List.countP_append, Nat.add_assoc]
  · intro ha w hm
    rw [hw] at hm
    rcases List.mem_append.mp hm with hm | hm
    · exact h.types ha w hm
    · exact h'.types ha w hm

theorem light_kind {fl : InstrFlags} {co : CodeObj} {f : BFunc} {s : Option FuncSummary}
    {st st' : Stats} {p : Plan} (h : instrumentLight fl co f s st = some (p, st')) :
    p.kind ≠ .skipped := by
  have := (light_spec h).1
  intro e
  cases this <;> cases e

theorem function_tally {fl : InstrFlags} {skip : List Nat} {o : BObject} {f : BFunc}
    {l : List (BFunc × Plan)} {st st' : Stats} {p : Plan}
    (h : instrumentFunction fl skip o.code
      (if fl.shadowStack = "light" then o.analyses else fun _ => none) f st = some (p, st')) :
    Tally fl skip [(o, f)] (l, st) (l ++ [(f, p)], st') := by
  unfold instrumentFunction at h
  dsimp only at h
  split at h
  · rename_i hl
    have ea : analysisOf fl (o, f) = o.analyses f.base := by simp [analysisOf, hl]
    split at h
    · cases h
    rename_i st1 hst
    have key : p.tag [.skipped] f.name = ([(o, f)].filter (leftAlone fl skip)).map (fun x => x.2.name) ∧
        Account f p st1 st' := by
      split at h
      · rename_i hs
        cases h
        refine ⟨?_, (SitesOnly.refl _).account rfl (by simp [Plan.tag, Plan.kind])
          (by simp [Plan.tag, Plan.kind]) (by simp [Plan.tag, Plan.kind]) ⟨rfl, rfl, rfl⟩
          ⟨rfl, rfl, rfl, rfl, rfl, rfl⟩ rfl rfl⟩
        have : leftAlone fl skip (o, f) = true := by
          unfold leftAlone
          rw [ea]
          unfold skippable at hs
          cases hd : fl.disableSfe
          · cases ha : o.analyses f.base with
            | none => simpa [hl, hd, ha] using hs
            | some x => simpa [hl, hd, ha] using hs
          · simp [hd] at hs
        simp [this, Plan.tag, Plan.kind]
      · rename_i hs
        refine ⟨?_, (light_spec h).2⟩
        have : leftAlone fl skip (o, f) = false := by
          unfold leftAlone
          rw [ea]
          unfold skippable at hs
          cases hd : fl.disableSfe
          · cases ha : o.analyses f.base with
            | none => simpa [hl, hd, ha] using hs
            | some x => simpa [hl, hd, ha] using hs
          · simp
        simp [this, Plan.tag, light_kind h]
    obtain ⟨k, a⟩ := key
    obtain ⟨c1, c2, c3⟩ := a.calls
    obtain ⟨w1, w2, w3, w4, w5, w6⟩ := a.writes
    cases hx : o.analyses f.base with
    | none =>
      rw [hx] at hst ea
      cases hst
      constructor <;> simp [*, writesOf, countSums, a.total, a.safe]
    | some x =>
      obtain ⟨s, ws⟩ := x
      rw [hx] at hst ea
      obtain ⟨k1, k2⟩ := countWrites_rest _ _ _ _ hst
      have e1 : writesOf fl [(o, f)] = ws := by simp [writesOf, ea]
      have e2 : ∀ P, countSums fl P [(o, f)] = (P s).toNat := by
        intro P
        simp [countSums, ea]
        cases P s <;> simp
      constructor
      · simp
      · simp only [a.safe, k]
        rw [k1]
        rfl
      · simp only [a.total]
        rw [k1]
        rfl
      · simp only [c1, e2]
        rw [k1]
        rfl
      · simp only [c2, e2]
        rw [k1]
        rfl
      · simp only [c3, e2]
        rw [k1]
        rfl
      · simp only [w1, e1]
        rw [k1]
        rfl
      · simp only [w2, e1]
        rw [k1]
        rfl
      · simp only [w3, e1]
        rw [k1]
        rfl
      · simp only [w4, e1]
        rw [k1]
        rfl
      · simp only [w5, e1]
        rw [k1]
        rfl
      · simp only [w6, e1]
        rw [k1]
        rfl
      · rw [e1]
        exact k2
  · rename_i hl
    cases h
    have ea : analysisOf fl (o, f) = none := by simp [analysisOf, hl]
    have eb : leftAlone fl skip (o, f) = false := by simp [leftAlone, hl]
    constructor <;> simp [ea, eb, writesOf, countSums]

theorem modules_tally {fl : InstrFlags} {skip : List Nat} {o : BObject} (fs : List BFunc)
    {r r' : List (BFunc × Plan) × Stats}
    (h : fs.foldlM (moduleStep fl skip o.code
      (if fl.shadowStack = "light" then o.analyses else fun _ => none)) r = some r') :
    Tally fl skip ((fs.filter fun f => !f.noReturn && f.region = ".text").map fun f => (o, f)) r r' := by
  induction fs generalizing r with
  | nil => cases h; exact .refl
  | cons f fs ih =>
    rw [List.foldlM_cons, Option.bind_eq_bind, Option.bind_eq_some_iff] at h
    obtain ⟨r1, h1, h2⟩ := h
    have ht := ih h2
    unfold moduleStep at h1
    split at h1
    · rename_i hn
      cases h1
      simpa [hn] using ht
    rename_i hn
    split at h1
    · rename_i hr
      cases h1
      simpa [hr] using ht
    rename_i hr
    obtain ⟨⟨p, st⟩, h3, h4⟩ := Option.map_eq_some_iff.mp h1
    cases h4
    have hn : f.noReturn = false := by simpa using hn
    have hr : f.region = ".text" := by simpa using hr
    have e : (f :: fs).filter (fun f => !f.noReturn && f.region = ".text") =
        f :: fs.filter fun f => !f.noReturn && f.region = ".text" := by simp [hn, hr]
    rw [e, List.map_cons]
    exact (function_tally h3).trans (xs := [_]) ht

theorem object_tally {fl : InstrFlags} {skip : List Nat} {o : BObject} (ms : List (List BFunc))
    {r r' : List (BFunc × Plan) × Stats}
    (h : ms.foldlM (fun r m => m.foldlM (moduleStep fl skip o.code
      (if fl.shadowStack = "light" then o.analyses else fun _ => none)) r) r = some r') :
    Tally fl skip ((ms.flatten.filter fun f => !f.noReturn && f.region = ".text").map fun f => (o, f)) r r' := by
  induction ms generalizing r with
  | nil => cases h; exact .refl
  | cons m ms ih =>
    rw [List.foldlM_cons, Option.bind_eq_bind, Option.bind_eq_some_iff] at h
    obtain ⟨r1, h1, h2⟩ := h
    rw [List.flatten_cons, List.filter_append, List.map_append]
    exact (modules_tally m h1).trans (ih h2)

theorem run_tally {fl : InstrFlags} {skip : List Nat} (os : List BObject)
    {r r' : List (BFunc × Plan) × Stats}
    (h : os.foldlM (fun r o =>
      if !fl.libs && isSharedLibrary o.path then some r else instrumentObject fl skip o r) r = some r') :
    Tally fl skip (treated fl os) r r' := by
  induction os generalizing r with
  | nil => cases h; exact .refl
  | cons o os ih =>
    rw [List.foldlM_cons, Option.bind_eq_bind, Option.bind_eq_some_iff] at h
    obtain ⟨r1, h1, h2⟩ := h
    have ht := ih h2
    have hno : considered fl o = false → treated fl (o :: os) = treated fl os := by
      intro e
      simp [treated, e]
    split at h1
    · rename_i hc
      cases h1
      rw [hno (by
        simp only [Bool.and_eq_true, Bool.not_eq_true'] at hc
        simp [considered, hc])]
      exact ht
    rename_i hc
    unfold instrumentObject at h1
    split at h1
    · rename_i hs
      cases h1
      rw [hno (by simp [considered, hs])]
      exact ht
    · rename_i hs
      have hyes : considered fl o = true := by
        have h1 : (fl.libs || !isSharedLibrary o.path) = true := by
          cases hl : fl.libs <;> cases hp : isSharedLibrary o.path <;> simp [hl, hp] at hc ⊢
        unfold considered
        rw [h1]
        simpa [Classical.or_iff_not_imp_left] using hs
      have e : treated fl (o :: os) =
          ((o.modules.flatten.filter fun f => !f.noReturn && f.region = ".text").map fun f => (o, f)) ++
            treated fl os := by
        simp [treated, hyes]
      rw [e]
      exact (object_tally _ h1).trans ht

/-- **C91, counts.** The report's numbers of functions and writes are those of the functions treated:
those of `.text` which may return, in the objects considered.  "Safe functions" are those judged safe
and those on the skip list. -/
theorem C91_counts {fl : InstrFlags} {skip : List Nat} {objs : List BObject}
    {l : List (BFunc × Plan)} {st : Stats} (h : instrument fl skip objs = some (l, st)) :
    l.map Prod.fst = (treated fl objs).map Prod.snd ∧
    (report l st).total = (treated fl objs).length ∧
    (report l st).safe.count = (treated fl objs).countP (leftAlone fl skip) ∧
    (report l st).withIndirectOrPlt =
      countSums fl (fun s => s.hasUnknownCf || !s.pltCalls.isEmpty) (treated fl objs) ∧
    (report l st).withIndirect = countSums fl (fun s => s.hasUnknownCf) (treated fl objs) ∧
    (report l st).withPlt = countSums fl (fun s => !s.pltCalls.isEmpty) (treated fl objs) ∧
    (report l st).writes = (writesOf fl (treated fl objs)).length ∧
    (report l st).stack.count = (writesOf fl (treated fl objs)).countP (·.stack) ∧
    (report l st).global.count = (writesOf fl (treated fl objs)).countP (·.global) ∧
    (report l st).heap.count = (writesOf fl (treated fl objs)).countP (·.heap) ∧
    (report l st).arg.count = (writesOf fl (treated fl objs)).countP (·.arg) ∧
    (report l st).heapOrArg.count = (writesOf fl (treated fl objs)).countP (·.heapOrArg) ∧
    (fl.asserts = true →
      (report l st).unknown.count = (writesOf fl (treated fl objs)).countP (fun w => w.types = 0)) := by
  have t := run_tally objs h
  have z : ∀ {a b : Nat}, a = 0 + b → a = b := fun h => h.trans (Nat.zero_add _)
  have zi : ∀ {a b : Nat}, a = 0 + b → (a : Int) = b := fun h => congrArg Nat.cast (z h)
  refine ⟨by simpa using t.fns, z t.total, ?_, z t.both, z t.indirect, z t.plt, z t.writes, zi t.stack,
    zi t.global, zi t.heap, zi t.arg, zi t.heapOrArg, fun ha => ?_⟩
  · have := t.safe
    simp only [List.nil_append] at this
    simp only [report, Row.of, this, List.length_map, List.countP_eq_length_filter]
  · have s := types_sum _ (t.types ha)
    have a1 := t.writes
    have a2 := t.stack
    have a3 := t.global
    have a4 := t.heap
    have a5 := t.arg
    have a6 := t.heapOrArg
    simp only [report, Row.of, Stats.unknownWrites]
    simp only [Nat.zero_add] at a1 a2 a3 a4 a5 a6
    omega

/-! ## Shares -/

theorem percent_none (n : Int) (d : Nat) : percent n d = none ↔ d = 0 := by
  unfold percent
  split <;> simp_all

theorem percent_bounds {n : Int} {d : Nat} {q : Rat} (h : percent n d = some q) (h0 : 0 ≤ n)
    (h1 : n ≤ d) : 0 ≤ q ∧ q ≤ 100 := by
  unfold percent at h
  split at h
  · cases h
  rename_i hd
  cases h
  have hd' : (0 : Rat) < d := by
    have : 0 < d := by omega
    exact Rat.natCast_pos.mpr this
  have e0 : (0 : Rat) ≤ n := by exact_mod_cast h0
  have e1 : (n : Rat) ≤ d := by exact_mod_cast h1
  constructor
  · rw [← Rat.not_lt, Rat.div_lt_iff hd']; grind
  · rw [← Rat.not_lt, Rat.lt_div_iff hd']; grind

/-- Functions which are neither left alone nor treated by lowering, the fast path or a register frame. -/
def plain (l : List (BFunc × Plan)) : Nat :=
  l.countP fun x => x.2.kind = .entryExit ∨ x.2.kind = .full

/-- **C91, shares of functions.** The percentages of functions are numbers if and only if a function was
treated; each is between 0 and 100, and with the share of the remaining functions they make 100. -/
theorem C91_functions {fl : InstrFlags} {skip : List Nat} {objs : List BObject}
    {l : List (BFunc × Plan)} {st : Stats} (h : instrument fl skip objs = some (l, st)) :
    (treated fl objs = [] → (report l st).safe.percent = none ∧ (report l st).regStack.percent = none ∧
      (report l st).lowered.percent = none) ∧
    (treated fl objs ≠ [] → ∃ a b c, (report l st).safe.percent = some a ∧
      (report l st).regStack.percent = some b ∧ (report l st).lowered.percent = some c ∧
      0 ≤ a ∧ 0 ≤ b ∧ 0 ≤ c ∧ a + b + c + plain l * 100 / (report l st).total = 100) := by
  obtain ⟨t1, _, t3, _⟩ := C40_totals h
  have t2 := (C91_counts h).2.1
  change st.totalFunc = _ at t2
  refine ⟨fun he => ?_, fun he => ?_⟩
  · rw [he] at t2
    exact ⟨(percent_none _ _).mpr t2, (percent_none _ _).mpr t2, (percent_none _ _).mpr t2⟩
  · have hd : st.totalFunc ≠ 0 := by
      rw [t2]
      intro e
      exact he (List.length_eq_zero_iff.mp e)
    have some_of : ∀ n : Int, percent n st.totalFunc = some (n * 100 / st.totalFunc : Rat) :=
      fun n => by rw [percent, if_neg hd]
    refine ⟨_, _, _, some_of _, some_of _, some_of _, (percent_bounds (some_of _) (by omega) (by omega)).1,
      (percent_bounds (some_of _) (by omega) (by omega)).1,
      (percent_bounds (some_of _) (by omega) (by omega)).1, ?_⟩
    have e : ((st.safeFns.length : Int) + st.regStackFns.length + st.loweredFns.length + (plain l : Int) : Rat) =
        st.totalFunc := by
      have : (st.safeFns.length : Int) + st.regStackFns.length + st.loweredFns.length + (plain l : Int) =
          st.totalFunc := by unfold plain; omega
      exact_mod_cast congrArg (fun x : Int => (x : Rat)) this
    have hd' : (st.totalFunc : Rat) ≠ 0 := by exact_mod_cast hd
    change _ + (plain l : Rat) * 100 / (st.totalFunc : Rat) = 100
    simp only [Rat.intCast_natCast] at e ⊢
    grind

/-- **C91, shares of writes.** The percentages of writes are numbers if and only if there is a write in
the summary of a treated function; then they make 100, and with assertions compiled in each is between 0
and 100. -/
theorem C91_writes {fl : InstrFlags} {skip : List Nat} {objs : List BObject}
    {l : List (BFunc × Plan)} {st : Stats} (h : instrument fl skip objs = some (l, st)) :
    let rows := [(report l st).stack, (report l st).global, (report l st).heap, (report l st).arg,
      (report l st).heapOrArg, (report l st).unknown]
    (writesOf fl (treated fl objs) = [] → ∀ r ∈ rows, r.percent = none) ∧
    (writesOf fl (treated fl objs) ≠ [] → ∃ qs : List Rat, rows.map Row.percent = qs.map some ∧
      qs.sum = 100 ∧ (fl.asserts = true → ∀ q ∈ qs, 0 ≤ q ∧ q ≤ 100)) := by
  obtain ⟨_, _, _, _, _, _, t, _⟩ := C91_counts h
  change st.memoryWrites = _ at t
  have b := fun ha => C43_write_statistics_partial h ha
  refine ⟨fun he => ?_, fun he => ?_⟩
  · rw [he] at t
    intro r hr
    simp only [List.mem_cons, List.not_mem_nil, or_false] at hr
    rcases hr with rfl | rfl | rfl | rfl | rfl | rfl <;> exact (percent_none _ _).mpr t
  · have hd : st.memoryWrites ≠ 0 := by
      rw [t]
      intro e
      exact he (List.length_eq_zero_iff.mp e)
    have some_of : ∀ n : Int, percent n st.memoryWrites = some (n * 100 / st.memoryWrites : Rat) :=
      fun n => by rw [percent, if_neg hd]
    refine ⟨[(st.stackWrites : Int), (st.globalWrites : Int), (st.heapWrites : Int), (st.argWrites : Int),
      (st.heapOrArgWrites : Int), st.unknownWrites].map fun n : Int => (n * 100 / st.memoryWrites : Rat),
      ?_, ?_, fun ha => ?_⟩
    · simp only [report, Row.of, some_of, List.map_cons, List.map_nil]
    · have e : (st.stackWrites + st.globalWrites + st.heapWrites + st.argWrites + st.heapOrArgWrites +
          st.unknownWrites : Rat) = st.memoryWrites := by
        have : (st.stackWrites : Int) + st.globalWrites + st.heapWrites + st.argWrites + st.heapOrArgWrites +
          st.unknownWrites = st.memoryWrites := by unfold Stats.unknownWrites; omega
        exact_mod_cast congrArg (fun x : Int => (x : Rat)) this
      have hd' : (st.memoryWrites : Rat) ≠ 0 := by exact_mod_cast hd
      simp only [List.map_cons, List.map_nil, List.sum_cons, List.sum_nil, Rat.intCast_natCast]
      grind
    · obtain ⟨b1, b2⟩ := b ha
      intro q hq
      obtain ⟨n, hn, rfl⟩ := List.mem_map.mp hq
      refine percent_bounds (some_of n) ?_ ?_ <;>
      · simp only [List.mem_cons, List.not_mem_nil, or_false] at hn
        rcases hn with rfl | rfl | rfl | rfl | rfl | rfl <;> omega

/-! ## Lowering -/

/-- No registers are known to be free there. -/
def noData (fl : InstrFlags) (t : List (Nat × MoveInst)) (a : Nat) : Bool :=
  fl.disableRegSaveOpt || (t.lookup a).isNone

theorem noData_eq (fl : InstrFlags) (t : List (Nat × MoveInst)) (a : Nat) :
    noData fl t a = (if fl.disableRegSaveOpt then none else t.lookup a).isNone := by
  unfold noData
  cases fl.disableRegSaveOpt <;> rfl

/-- **C91, lowering.** For a lowered function which does not use a register frame, the sites counted are
all snippets, those "without dead registers" the ones at places for which none were found; for one with
a register frame nothing is counted. -/
theorem C91_lowering {fl : InstrFlags} {co : CodeObj} {f : Func} {s : FuncSummary} {L : Lowered}
    (h : doLowering fl co f (some s) = some (some L)) :
    (useRegFrame fl (some s) = true → (Plan.lowered L).loweringSites = {}) ∧
    (useRegFrame fl (some s) = false → (Plan.lowered L).loweringSites =
      { noEntry := L.edgePush.countP (fun x => noData fl s.entryFixedData (co.start x.1.trg)) +
          L.blockPush.countP (fun x => noData fl s.entryData (co.start x.1.1))
        noExit := L.pops.countP (fun x => noData fl s.exitData (co.start x.1))
        all := L.edgePush.length + L.blockPush.length + L.pops.length }) := by
  have hu : useRegFrame fl (some s) = (s.shouldUseRegisterFrame && !fl.disableRegFrame) := by
    simp [useRegFrame, Bool.and_comm]
  rw [hu]
  simp only [doLowering] at h
  split at h
  · cases h
  split at h
  · cases h
  split at h
  · cases h
  rw [Option.bind_eq_bind, Option.bind_eq_some_iff] at h
  obtain ⟨r, _, h⟩ := h
  split at h
  · cases h
  split at h
  · cases h
  obtain ⟨L', h, e⟩ := Option.map_eq_some_iff.mp h
  cases e
  simp only [lowerWith, Option.bind_eq_bind, Option.bind_eq_some_iff] at h
  obtain ⟨d, _, d', _, reach, _, eps, he, bps, hb, h⟩ := h
  cases h
  generalize (s.shouldUseRegisterFrame && !fl.disableRegFrame) = u at he hb ⊢
  have k1 : ∀ x ∈ eps, x.2.onStack = !u ∧
      x.2.noDead = (!u && noData fl s.entryFixedData (co.start x.1.trg)) := by
    intro x hx
    obtain ⟨a, _, ha⟩ := mem_mapM _ _ he x hx
    simp only [edgePushOf, Option.bind_eq_bind, Option.bind_eq_some_iff] at ha
    obtain ⟨n, _, ha⟩ := ha
    cases u
    · simp only [Bool.false_eq_true, if_false] at ha
      split at ha <;> rename_i hm <;> cases ha
      · refine ⟨rfl, ?_⟩
        rw [noData_eq, hm]
        rfl
      · refine ⟨rfl, ?_⟩
        rw [noData_eq, hm]
        rfl
    · cases ha
      exact ⟨rfl, rfl⟩
  have k2 : ∀ x ∈ bps, x.2.1.onStack = !u ∧
      x.2.1.noDead = (!u && noData fl s.entryData (co.start x.1.1)) := by
    intro x hx
    obtain ⟨a, _, ha⟩ := mem_mapM _ _ hb x hx
    simp only [blockPushOf, Option.bind_eq_bind, Option.bind_eq_some_iff] at ha
    obtain ⟨n, _, ha⟩ := ha
    cases u
    · simp only [Bool.false_eq_true, if_false] at ha
      split at ha <;> rename_i hm <;> cases ha
      · refine ⟨rfl, ?_⟩
        rw [noData_eq, hm]
        rfl
      · refine ⟨rfl, ?_⟩
        rw [noData_eq, hm]
        rfl
    · cases ha
      exact ⟨rfl, rfl⟩
  have k3 : ∀ x ∈ (co.exitBlocks f).filterMap (popOf fl co s u), x.2.1.onStack = !u ∧
      x.2.1.noDead = (!u && noData fl s.exitData (co.start x.1)) := by
    intro x hx
    obtain ⟨a, _, ha⟩ := List.mem_filterMap.mp hx
    unfold popOf at ha
    split at ha
    · cases ha
    dsimp only at ha
    cases u
    · simp only [Bool.false_eq_true, if_false] at ha
      split at ha <;> rename_i hm <;> cases ha
      · refine ⟨rfl, ?_⟩
        rw [noData_eq, hm]
        rfl
      · refine ⟨rfl, ?_⟩
        rw [noData_eq, hm]
        rfl
    · cases ha
      exact ⟨rfl, rfl⟩
  generalize (co.exitBlocks f).filterMap (popOf fl co s u) = pops at k3 ⊢
  refine ⟨fun e => ?_, fun e => ?_⟩
  · subst e
    have z1 : ∀ {α : Type} (l : List α) (P : α → Bool), (∀ x ∈ l, P x = false) → l.countP P = 0 :=
      fun l P h => List.countP_eq_zero.mpr fun x hx => by simp [h x hx]
    simp only [Plan.loweringSites]
    rw [z1 _ _ fun x hx => (k1 x hx).1, z1 _ _ fun x hx => (k2 x hx).1, z1 _ _ fun x hx => (k3 x hx).1,
      z1 _ _ fun x hx => (k1 x hx).2, z1 _ _ fun x hx => (k2 x hx).2, z1 _ _ fun x hx => (k3 x hx).2]
  · subst e
    have z1 : ∀ {α : Type} (l : List α) (P : α → Bool), (∀ x ∈ l, P x = true) → l.countP P = l.length :=
      fun l P h => List.countP_eq_length.mpr h
    have z2 : ∀ {α : Type} (l : List α) (P Q : α → Bool), (∀ x ∈ l, P x = Q x) → l.countP P = l.countP Q :=
      fun l P Q h => List.countP_congr fun x hx => by rw [h x hx]
    simp only [Plan.loweringSites]
    rw [z1 _ _ fun x hx => (k1 x hx).1, z1 _ _ fun x hx => (k2 x hx).1, z1 _ _ fun x hx => (k3 x hx).1,
      z2 _ _ _ fun x hx => (k1 x hx).2, z2 _ _ _ fun x hx => (k2 x hx).2, z2 _ _ _ fun x hx => (k3 x hx).2]
    simp

theorem sites_le (p : Plan) : p.loweringSites.noEntry + p.loweringSites.noExit ≤ p.loweringSites.all := by
  have z : ∀ {α : Type} (l : List α) (P Q : α → Bool), (∀ x, P x = true → Q x = true) →
      l.countP P ≤ l.countP Q := fun l P Q h => List.countP_mono_left fun x _ => h x
  have h1 : ∀ k : PushKind, k.noDead = true → k.onStack = true := by
    intro k h
    cases k <;> first | rfl | cases h
  have h2 : ∀ k : PopKind, k.noDead = true → k.onStack = true := by
    intro k h
    cases k <;> first | rfl | cases h
  cases p with
  | lowered L =>
    have a := z L.edgePush _ _ fun x => h1 x.2
    have b := z L.blockPush _ _ fun x => h1 x.2.1
    have c := z L.pops _ _ fun x => h2 x.2.1
    simp only [Plan.loweringSites]
    omega
  | _ => simp [Plan.loweringSites]

/-- The three numbers of the report are sums over the functions, and at most the third are counted in the
first two. -/
theorem C91_sites (l : List (BFunc × Plan)) (st : Stats) :
    (report l st).lowering.noEntry = (l.map fun x => x.2.loweringSites.noEntry).sum ∧
    (report l st).lowering.noExit = (l.map fun x => x.2.loweringSites.noExit).sum ∧
    (report l st).lowering.all = (l.map fun x => x.2.loweringSites.all).sum ∧
    (report l st).lowering.noEntry + (report l st).lowering.noExit ≤ (report l st).lowering.all := by
  have key : ∀ (l : List (BFunc × Plan)) (a : LoweringSites),
      ((l.map fun x => x.2.loweringSites).foldl LoweringSites.add a) =
        ⟨a.noEntry + (l.map fun x => x.2.loweringSites.noEntry).sum,
         a.noExit + (l.map fun x => x.2.loweringSites.noExit).sum,
         a.all + (l.map fun x => x.2.loweringSites.all).sum⟩ := by
    intro l
    induction l with
    | nil => intro a; rfl
    | cons x l ih =>
      intro a
      simp only [List.map_cons, List.foldl_cons, ih, LoweringSites.add, List.sum_cons, Nat.add_assoc]
  have hle : ∀ l : List (BFunc × Plan), (l.map fun x => x.2.loweringSites.noEntry).sum +
      (l.map fun x => x.2.loweringSites.noExit).sum ≤ (l.map fun x => x.2.loweringSites.all).sum := by
    intro l
    induction l with
    | nil => simp
    | cons x l ih =>
      have := sites_le x.2
      simp only [List.map_cons, List.sum_cons]
      omega
  simp only [report, key, Nat.zero_add, true_and]
  exact hle l

/-! ## The file written -/

/-- **C91, output.** The input is overwritten only if it is named as output. -/
theorem C91_output (output binary : String) :
    outputName output binary = binary ↔ output = binary ∧ output ≠ "" := by
  unfold outputName
  by_cases h : output.isEmpty = true
  · rw [if_pos h]
    have e : output = "" := by simpa using h
    refine ⟨fun h => ?_, fun h' => absurd e h'.2⟩
    have := congrArg String.length h
    rw [String.length_append, show "_cfi".length = 4 from by decide +kernel] at this
    omega
  · rw [if_neg h]
    refine ⟨fun h' => ⟨h', fun e => h (by simp [e])⟩, fun h' => h'.1⟩

/-! ## Examples and failures -/

/-- Full mode never has anything to say about writes. -/
theorem C91_full {fl : InstrFlags} {skip : List Nat} {objs : List BObject}
    {l : List (BFunc × Plan)} {st : Stats} (h : instrument fl skip objs = some (l, st))
    (hf : fl.shadowStack ≠ "light") :
    (report l st).writes = 0 ∧ (report l st).stack.percent = none ∧ (report l st).unknown.percent = none ∧
    (report l st).safe.count = 0 := by
  have e : writesOf fl (treated fl objs) = [] := by
    simp [writesOf, analysisOf, hf]
  obtain ⟨_, _, t3, _, _, _, t, _⟩ := C91_counts h
  rw [e] at t
  have w := (C91_writes h).1 e
  refine ⟨t, w _ (by simp), w _ (by simp), ?_⟩
  rw [t3]
  have : (treated fl objs).countP (leftAlone fl skip) = 0 :=
    List.countP_eq_zero.mpr fun x _ => by simp [leftAlone, hf]
  rw [this]
  rfl

/-- Example for `C91_counts`, `C91_functions` and `C91_writes`. -/
def reportObj : BObject :=
  { goodProg.object "/bin/prog" 2 with
    analyses := analysisTable goodProg.code goodProg.sums fun _ => [{ stack := true }, {}, { heap := true }, {}] }

/-- Some of the lines. -/
def shown (r : List (BFunc × Plan) × Stats) : List Row × Nat × Nat :=
  ([(report r.1 r.2).safe, (report r.1 r.2).lowered, (report r.1 r.2).stack, (report r.1 r.2).heap,
    (report r.1 r.2).unknown], (report r.1 r.2).total, (report r.1 r.2).writes)

example : (instrument {} [4096 + 16 * 4] [goodProg.object "/lib/libc.so.6" 1, reportObj]).map shown =
    some ([⟨1, some (100 / 3)⟩, ⟨1, some (100 / 3)⟩, ⟨3, some 25⟩, ⟨3, some 25⟩, ⟨6, some 50⟩], 3, 12) := by
  decide +kernel

/-- Example for `C91_lowering`. -/
example : ∃ L, doLowering {} lowGraph 0 (some (lowSum [2, 3])) = some (some L) ∧
    useRegFrame {} (some (lowSum [2, 3])) = false ∧
    (Plan.lowered L).loweringSites = ⟨1, 1, 2⟩ :=
  ⟨_, rfl, by decide, by decide⟩

/-- **C91 fails if nothing is treated**: the shares are not numbers. -/
theorem C91_refuted_nan : ∃ objs l st, objs ≠ [] ∧ instrument {} [] objs = some (l, st) ∧
    (report l st).safe.percent = none ∧ (report l st).unknown.percent = none :=
  ⟨[tinyObj "/home/me.software/prog"], _, _, by simp, rfl, rfl, rfl⟩

/-- **C91 fails for the skip list**: its functions are reported as safe, though the analysis found them
unsafe. -/
theorem C91_refuted_safe : ∃ skip objs l st, instrument {} skip objs = some (l, st) ∧
    (report l st).safe.count = 1 ∧
    ∀ x ∈ treated {} objs, ∃ s ws, analysisOf {} x = some (s, ws) ∧ s.safe = false := by
  refine ⟨[4096], [tinyObj "/bin/prog"], _, _, rfl, by decide, fun x hx => ?_⟩
  have : treated {} [tinyObj "/bin/prog"] = [(tinyObj "/bin/prog", tinyFunc)] := rfl
  rw [this] at hx
  obtain rfl := List.mem_singleton.mp hx
  exact ⟨_, _, rfl, rfl⟩

end Verif
