import Verif.Props.FullModeExamples

/-!
# C90: what a run of the tool makes of each code object

`C45` and `C89` are about plans for the functions of one code object.  Here these plans are taken from
what `instrument` (`Plan.lean`) returns for all code objects.
-/

namespace Verif

/-- The table `analyses` at `/repo/src/instrument.cc:980-984`: of several summaries with the same address
the last one stays. -/
def analysisTable (co : CodeObj) (T : Sums) (ws : Func → List WriteInfo) (a : Nat) :
    Option (FuncSummary × List WriteInfo) :=
  (co.funcs.reverse.find? fun f => co.addr f = a).map fun f => (T f, ws f)

/-- What became of the functions in the list; those which are not in it were left alone. -/
def planOf (l : List (BFunc × Plan)) (f : Func) : Plan :=
  ((l.find? fun x => x.1.func = f).map Prod.snd).getD .skipped

/-- In a run over the code objects `os` with the result `res`, `l` is what was done to the functions of `o`:
what is in the result after `o` and was not in it before. -/
def DoneTo (fl : InstrFlags) (skip : List Nat) (os : List BObject) (res : List (BFunc × Plan)) (o : BObject)
    (l : List (BFunc × Plan)) : Prop :=
  ∃ pre post l0 l1 s0 s1, os = pre ++ o :: post ∧ instrument fl skip pre = some (l0, s0) ∧
    instrument fl skip (pre ++ [o]) = some (l0 ++ l, s1) ∧ res = l0 ++ l ++ l1

/-- The functions whose return address is kept in a register: in light mode only. -/
def inRegIn (fl : InstrFlags) (T : Sums) (f : Func) : Prop := fl.shadowStack = "light" ∧ inRegOf fl T f

/-- The object is looked at: neither a library left out nor trusted. -/
def Considered (fl : InstrFlags) (o : BObject) : Prop :=
  (fl.libs = true ∨ ¬ ".so".toList <:+: o.path.toList) ∧
  ¬ (fl.threatModel = "trust_system" ∧ isSystemCode o.path = true)

/-- BPatch shows each function of the code object once, in one of the modules. -/
structure Shows (o : BObject) (bf : Func → BFunc) : Prop where
  func : ∀ f ∈ o.code.funcs, bf f ∈ o.modules.flatten ∧ (bf f).func = f
  once : (o.modules.flatten.map BFunc.func).Nodup

theorem foldlM_split {σ α : Type} {step : σ → α → Option σ} {as bs : List α} {s s' : σ}
    (h : (as ++ bs).foldlM step s = some s') :
    ∃ s1, as.foldlM step s = some s1 ∧ bs.foldlM step s1 = some s' := by
  rw [List.foldlM_append, Option.bind_eq_bind, Option.bind_eq_some_iff] at h
  exact h

/-- What the loop over the functions of modules appends. -/
def Appends (fl : InstrFlags) (skip : List Nat) (co : CodeObj)
    (an : Nat → Option (FuncSummary × List WriteInfo)) (fs : List BFunc)
    (r r' : List (BFunc × Plan) × Stats) : Prop :=
  ∃ l, r'.1 = r.1 ++ l ∧ l.map Prod.fst = fs.filter (fun f => !f.noReturn && f.region = ".text") ∧
    ∀ x ∈ l, ∃ st st', instrumentFunction fl skip co an x.1 st = some (x.2, st')

theorem Appends.trans {fl : InstrFlags} {skip : List Nat} {co : CodeObj}
    {an : Nat → Option (FuncSummary × List WriteInfo)} {fs gs : List BFunc}
    {r1 r2 r3 : List (BFunc × Plan) × Stats} (h1 : Appends fl skip co an fs r1 r2)
    (h2 : Appends fl skip co an gs r2 r3) : Appends fl skip co an (fs ++ gs) r1 r3 := by
  obtain ⟨l1, e1, m1, p1⟩ := h1
  obtain ⟨l2, e2, m2, p2⟩ := h2
  refine ⟨l1 ++ l2, by rw [e2, e1, List.append_assoc], by simp [m1, m2], fun x hx => ?_⟩
  rcases List.mem_append.mp hx with hx | hx
  · exact p1 x hx
  · exact p2 x hx

theorem step_appends {fl : InstrFlags} {skip : List Nat} {co : CodeObj}
    {an : Nat → Option (FuncSummary × List WriteInfo)} {f : BFunc}
    {r r' : List (BFunc × Plan) × Stats} (h : moduleStep fl skip co an r f = some r') :
    Appends fl skip co an [f] r r' := by
  unfold moduleStep at h
  split at h
  · rename_i hn
    cases h
    exact ⟨[], by simp, by simp [hn], nofun⟩
  rename_i hn
  split at h
  · rename_i hr
    cases h
    exact ⟨[], by simp, by simp [hr], nofun⟩
  rename_i hr
  obtain ⟨⟨p, st⟩, h1, h2⟩ := Option.map_eq_some_iff.mp h
  cases h2
  refine ⟨[(f, p)], rfl, ?_, fun x hx => ?_⟩
  · have hn : f.noReturn = false := by simpa using hn
    have hr : f.region = ".text" := by simpa using hr
    simp [hn, hr]
  · obtain rfl := List.mem_singleton.mp hx
    exact ⟨r.2, st, h1⟩

theorem module_appends {fl : InstrFlags} {skip : List Nat} {co : CodeObj}
    {an : Nat → Option (FuncSummary × List WriteInfo)} (fs : List BFunc)
    {r r' : List (BFunc × Plan) × Stats} (h : fs.foldlM (moduleStep fl skip co an) r = some r') :
    Appends fl skip co an fs r r' := by
  induction fs generalizing r with
  | nil => cases h; exact ⟨[], by simp, rfl, nofun⟩
  | cons f fs ih =>
    rw [List.foldlM_cons, Option.bind_eq_bind, Option.bind_eq_some_iff] at h
    obtain ⟨r1, h1, h2⟩ := h
    exact (step_appends h1).trans (ih h2)

theorem object_appends {fl : InstrFlags} {skip : List Nat} {co : CodeObj}
    {an : Nat → Option (FuncSummary × List WriteInfo)} (ms : List (List BFunc))
    {r r' : List (BFunc × Plan) × Stats}
    (h : ms.foldlM (fun r m => m.foldlM (moduleStep fl skip co an) r) r = some r') :
    Appends fl skip co an ms.flatten r r' := by
  induction ms generalizing r with
  | nil => cases h; exact ⟨[], by simp, rfl, nofun⟩
  | cons m ms ih =>
    rw [List.foldlM_cons, Option.bind_eq_bind, Option.bind_eq_some_iff] at h
    obtain ⟨r1, h1, h2⟩ := h
    exact (module_appends m h1).trans (ih h2)

/-- Later objects only append. -/
theorem loop_extends {fl : InstrFlags} {skip : List Nat} (os : List BObject)
    {r r' : List (BFunc × Plan) × Stats}
    (h : os.foldlM (fun r o =>
      if !fl.libs && isSharedLibrary o.path then some r else instrumentObject fl skip o r) r = some r') :
    ∃ l, r'.1 = r.1 ++ l := by
  induction os generalizing r with
  | nil => cases h; exact ⟨[], by simp⟩
  | cons o os ih =>
    rw [List.foldlM_cons, Option.bind_eq_bind, Option.bind_eq_some_iff] at h
    obtain ⟨r1, h1, h2⟩ := h
    obtain ⟨l2, e2⟩ := ih h2
    have : ∃ l, r1.1 = r.1 ++ l := by
      split at h1
      · cases h1; exact ⟨[], by simp⟩
      · unfold instrumentObject at h1
        split at h1
        · cases h1; exact ⟨[], by simp⟩
        · obtain ⟨l, e, _⟩ := object_appends _ h1
          exact ⟨l, e⟩
    obtain ⟨l1, e1⟩ := this
    exact ⟨l1 ++ l2, by rw [e2, e1, List.append_assoc]⟩

/-- **C90, every code object.** If the tool gets through, something was done to each code object; it stands
together in the result. -/
theorem C90_done {fl : InstrFlags} {skip : List Nat} {os : List BObject} {o : BObject}
    {res : List (BFunc × Plan)} {st : Stats} (h : instrument fl skip os = some (res, st)) (hm : o ∈ os) :
    ∃ l, DoneTo fl skip os res o l := by
  obtain ⟨pre, post, rfl⟩ := List.append_of_mem hm
  obtain ⟨r1, h1, h2⟩ := foldlM_split h
  rw [show o :: post = [o] ++ post from rfl] at h2
  obtain ⟨r2, h2, h3⟩ := foldlM_split h2
  obtain ⟨l1, e1⟩ := loop_extends post h3
  obtain ⟨l, e⟩ := loop_extends [o] h2
  refine ⟨l, pre, post, r1.1, l1, r1.2, r2.2, rfl, h1, ?_, by rw [← e, ← e1]⟩
  rw [← e]
  show List.foldlM _ _ (pre ++ [o]) = _
  rw [List.foldlM_append, Option.bind_eq_bind, Option.bind_eq_some_iff]
  exact ⟨r1, h1, h2⟩

/-- **C90, one code object.** What a run of the tool does to a code object which it considers: exactly the
functions of its modules which may return and are in `.text` are treated, in order, each by
`InstrumentFunction` with the analyses of this object. -/
theorem C90_object {fl : InstrFlags} {skip : List Nat} {os : List BObject} {o : BObject}
    {res l : List (BFunc × Plan)} (h : DoneTo fl skip os res o l) (hc : Considered fl o) :
    l.map Prod.fst = o.modules.flatten.filter (fun f => !f.noReturn && f.region = ".text") ∧
      ∀ x ∈ l, ∃ st st', instrumentFunction fl skip o.code
        (if fl.shadowStack = "light" then o.analyses else fun _ => none) x.1 st = some (x.2, st') := by
  obtain ⟨pre, post, l0, l1, s0, s1, -, h0, h, -⟩ := h
  obtain ⟨r1, h1, h2⟩ := foldlM_split h
  obtain rfl : r1 = (l0, s0) := Option.some.inj (h1.symm.trans h0)
  rw [List.foldlM_cons, Option.bind_eq_bind, Option.bind_eq_some_iff] at h2
  obtain ⟨r2, h2, h3⟩ := h2
  cases h3
  have hshared : isSharedLibrary o.path = true ↔ ".so".toList <:+: o.path.toList := by
    rw [isSharedLibrary, strFind_some]
  rw [if_neg (by
    simp only [Bool.and_eq_true, Bool.not_eq_true', hshared]
    rintro ⟨k1, k2⟩
    rcases hc.1 with k | k
    · rw [k1] at k; cases k
    · exact k k2)] at h2
  unfold instrumentObject at h2
  rw [if_neg hc.2] at h2
  obtain ⟨l', e, hl, hp⟩ := object_appends _ h2
  obtain rfl : l = l' := List.append_cancel_left (show l0 ++ l = l0 ++ l' from e)
  exact ⟨hl, hp⟩

theorem func_once {fs : List BFunc} (hn : (fs.map BFunc.func).Nodup) {a g : BFunc} (ha : a ∈ fs)
    (hg : g ∈ fs) (e : a.func = g.func) : a = g := by
  induction fs with
  | nil => cases ha
  | cons x fs ih =>
    rw [List.map_cons, List.nodup_cons] at hn
    rcases List.mem_cons.mp ha with h1 | h1
    · rcases List.mem_cons.mp hg with h2 | h2
      · rw [h1, h2]
      · exact absurd (h1 ▸ e ▸ List.mem_map_of_mem h2) hn.1
    · rcases List.mem_cons.mp hg with h2 | h2
      · exact absurd (h2 ▸ e ▸ List.mem_map_of_mem h1) hn.1
      · exact ih hn.2 h1 h2

/-- Looking up a function in what was appended. -/
theorem planOf_spec {l : List (BFunc × Plan)} {fs : List BFunc} {sel : BFunc → Bool}
    (hl : l.map Prod.fst = fs.filter sel) (hn : (fs.map BFunc.func).Nodup) {g : BFunc} (hg : g ∈ fs) :
    (sel g = true → (g, planOf l g.func) ∈ l) ∧ (sel g = false → planOf l g.func = .skipped) := by
  have hinj : ∀ a ∈ fs, a.func = g.func → a = g := fun a ha e => func_once hn ha hg e
  have hmem : ∀ x ∈ l, x.1 ∈ fs ∧ sel x.1 = true := by
    intro x hx
    have : x.1 ∈ l.map Prod.fst := List.mem_map_of_mem hx
    rw [hl] at this
    exact List.mem_filter.mp this
  unfold planOf
  cases hf : l.find? fun x => x.1.func = g.func with
  | none =>
    refine ⟨fun hs => ?_, fun _ => rfl⟩
    have : g ∈ l.map Prod.fst := by rw [hl]; exact List.mem_filter.mpr ⟨hg, hs⟩
    obtain ⟨x, hx, rfl⟩ := List.mem_map.mp this
    have := List.find?_eq_none.mp hf x hx
    simp at this
  | some x =>
    have hx := List.mem_of_find?_eq_some hf
    have he : x.1.func = g.func := by simpa using List.find?_some hf
    have hxg := hinj x.1 (hmem x hx).1 he
    refine ⟨fun _ => ?_, fun hs => ?_⟩
    · rw [← hxg]; exact hx
    · rw [← hxg, (hmem x hx).2] at hs
      cases hs

theorem table_lookup {co : CodeObj} (hok : CodeOk co) (T : Sums) (ws : Func → List WriteInfo) {f : Func}
    (hf : f ∈ co.funcs) : analysisTable co T ws (co.addr f) = some (T f, ws f) := by
  unfold analysisTable
  cases h : co.funcs.reverse.find? fun g => co.addr g = co.addr f with
  | none =>
    have := List.find?_eq_none.mp h f (by simpa using hf)
    simp at this
  | some g =>
    have h1 : g ∈ co.funcs := by simpa using List.mem_of_find?_eq_some h
    have h2 : co.addr g = co.addr f := by simpa using List.find?_some h
    rw [hok.addr g h1 f hf h2]
    rfl

section
variable {fl : InstrFlags} {skip : List Nat} {info : StackInfo} {R : Func → RegFacts} {T : Sums}
  {bf : Func → BFunc} {os : List BObject} {o : BObject} {res l : List (BFunc × Plan)} {st : Stats}

/-- **C90, light mode.** If the tool gets through, each code object which it considers is one of those of
`C45`, `C79`, `C80` and `C86` to `C88`. -/
theorem C90_light (h : DoneTo fl skip os res o l) (hc : Considered fl o)
    (hs : Shows o bf) (hl : fl.shadowStack = "light") (ha : fl.asserts = true) (hok : CodeOk o.code)
    (hf : ∀ f ∈ o.code.funcs, FuncOk o.code f) (hv : ∀ f ∈ o.code.funcs, View o.code info (bf f) f)
    (hT : analyse o.code info R = some T) {ws : Func → List WriteInfo}
    (han : o.analyses = analysisTable o.code T ws) :
    Built fl skip o.code info R T bf (planOf l) := by
  obtain ⟨hm, hp⟩ := C90_object h hc
  refine ⟨hok, hT, hl, ha, hf, hv, fun f hfm hx => ?_, fun f hfm h1 h2 => ?_⟩
  · obtain ⟨k1, k2⟩ := hs.func f hfm
    have := (planOf_spec hm hs.once k1).2 (by
      rcases hx with hx | hx
      · simp [hx]
      · simp [hx])
    rwa [k2] at this
  · obtain ⟨k1, k2⟩ := hs.func f hfm
    have := (planOf_spec hm hs.once k1).1 (by simp [h1, h2])
    rw [k2] at this
    obtain ⟨s1, s2, hi⟩ := hp _ this
    rw [if_pos hl] at hi
    exact ⟨ws f, o.analyses, s1, s2, by rw [han]; exact table_lookup hok T ws hfm, hi⟩

/-- **C90, full mode.** Likewise for `C89`. -/
theorem C90_full (h : DoneTo fl skip os res o l) (hc : Considered fl o)
    (hs : Shows o bf) (hl : fl.shadowStack ≠ "light")
    (hf : ∀ f ∈ o.code.funcs, FuncOk o.code f) (hv : ∀ f ∈ o.code.funcs, View o.code info (bf f) f) :
    BuiltFull fl skip o.code bf (planOf l) := by
  obtain ⟨hm, hp⟩ := C90_object h hc
  refine ⟨hl, hf, fun f hf' => (hv f hf').entries, fun f hf' => (hv f hf').exits,
    fun f hfm hx => ?_, fun f hfm h1 h2 => ?_⟩
  · obtain ⟨k1, k2⟩ := hs.func f hfm
    have := (planOf_spec hm hs.once k1).2 (by
      rcases hx with hx | hx
      · simp [hx]
      · simp [hx])
    rwa [k2] at this
  · obtain ⟨k1, k2⟩ := hs.func f hfm
    have := (planOf_spec hm hs.once k1).1 (by simp [h1, h2])
    rw [k2] at this
    obtain ⟨s1, s2, hi⟩ := hp _ this
    exact ⟨_, s1, s2, hi⟩

theorem inRegIn_light (hl : fl.shadowStack = "light") : inRegIn fl T = inRegOf fl T :=
  funext fun _ => propext ⟨And.right, fun h => ⟨hl, h⟩⟩

theorem inRegIn_full (hl : fl.shadowStack ≠ "light") : inRegIn fl T = fun _ => False :=
  funext fun _ => propext ⟨fun h => hl h.1, False.elim⟩

/-- **C90.** Each code object which the tool considers is protected after a run of the tool, under the
conditions of `C45_protected_partial` in light mode and of `C89_protected_partial` in full mode. -/
theorem C90_protected_partial (h : DoneTo fl skip os res o l)
    (hc : Considered fl o) (hs : Shows o bf) (ha : fl.asserts = true) (hok : CodeOk o.code)
    (hf : ∀ f ∈ o.code.funcs, FuncOk o.code f) (hv : ∀ f ∈ o.code.funcs, View o.code info (bf f) f)
    (hT : analyse o.code info R = some T) {ws : Func → List WriteInfo}
    (han : o.analyses = analysisTable o.code T ws)
    (hlight : fl.shadowStack = "light" → ∀ f ∈ o.code.funcs, NoCallAtCheck fl o.code (bf f) ∧
      CallsCovered T f ∧ TailsOk o.code T f ∧ LeftOk skip o.code T bf f)
    (hfull : fl.shadowStack ≠ "light" → ∀ f ∈ o.code.funcs, FullOk o.code info bf f) :
    ∀ f, Protected (semOf o.code info (planOf l) (inRegIn fl T) (staysOf bf)) f := by
  by_cases hl : fl.shadowStack = "light"
  · rw [inRegIn_light hl]
    exact C45_protected_partial (C90_light h hc hs hl ha hok hf hv hT han) (fun f hf => (hlight hl f hf).1)
      (fun f hf => (hlight hl f hf).2.1) (fun f hf => (hlight hl f hf).2.2.1)
      fun f hf => (hlight hl f hf).2.2.2
  · rw [inRegIn_full hl]
    exact C89_protected_partial (C90_full h hc hs hl hf hv) (hfull hl)

end

/-! ## Example -/

namespace Small

/-- The program as a code object whose functions are in two modules. -/
def object (p : Small) (path : String) (n : Nat) : BObject where
  path := path
  modules := [(p.code.funcs.take n).map p.bfunc, (p.code.funcs.drop n).map p.bfunc]
  code := p.code
  analyses := analysisTable p.code p.sums fun _ => []

theorem shows (p : Small) (path : String) (n : Nat) : Shows (p.object path n) p.bfunc where
  func f hf := by
    refine ⟨?_, rfl⟩
    have : (p.object path n).modules.flatten = p.code.funcs.map p.bfunc := by
      simp [object]
    rw [this]
    exact List.mem_map_of_mem hf
  once := by
    have : (p.object path n).modules.flatten = p.code.funcs.map p.bfunc := by
      simp [object]
    rw [this, List.map_map]
    have e : (BFunc.func ∘ p.bfunc) = id := rfl
    rw [e, List.map_id]
    exact List.nodup_range

end Small

/-- The tool's run on a library, the program, and another library. -/
def sampleObjects : List BObject :=
  [goodProg.object "/lib/libc.so.6" 1, goodProg.object "/bin/prog" 2, recProg.object "/lib/libx.so" 0]

def sampleRun (fl : InstrFlags) : Option (List (BFunc × Plan) × Stats) := instrument fl [] sampleObjects

theorem sampleRun_light : (sampleRun {}).isSome = true := by decide +kernel

theorem sampleRun_full : (sampleRun fullFlags).isSome = true := by decide +kernel

example : ((sampleRun {}).map fun r => r.1.map fun x => x.1.func) = some [0, 1, 2] := by decide +kernel

theorem sample_considered (fl : InstrFlags) : Considered fl (goodProg.object "/bin/prog" 2) := by
  refine ⟨.inr (by decide +kernel), fun h => ?_⟩
  have : isSystemCode "/bin/prog" = false := by decide +kernel
  rw [show (goodProg.object "/bin/prog" 2).path = "/bin/prog" from rfl, this] at h
  cases h.2

/-- Example for `C90_protected_partial`: both modes protect the program. -/
example (full : Bool) : ∃ res st,
    sampleRun (if full then fullFlags else {}) = some (res, st) ∧
    ∃ l, DoneTo (if full then fullFlags else {}) [] sampleObjects res (goodProg.object "/bin/prog" 2) l ∧
      ∀ f, Protected (semOf goodProg.code goodProg.info (planOf l)
        (inRegIn (if full then fullFlags else {}) goodProg.sums) (staysOf goodProg.bfunc)) f := by
  have hsome : (sampleRun (if full then fullFlags else {})).isSome = true := by
    cases full
    · exact sampleRun_light
    · exact sampleRun_full
  obtain ⟨⟨res, st⟩, h⟩ := Option.isSome_iff_exists.mp hsome
  obtain ⟨l, hl⟩ := C90_done h (List.mem_cons_of_mem _ List.mem_cons_self)
  refine ⟨res, st, h, l, hl, C90_protected_partial hl ?_ (goodProg.shows _ _) ?_ goodProg_ok.code goodProg_ok.func
    goodProg_ok.view goodProg_ok.analysed rfl (fun hm f hf => ?_) fun _ => ?_⟩
  · exact sample_considered _
  · cases full <;> rfl
  · cases full
    · exact ⟨goodProg_calls f hf, goodProg_ok.built.covered (goodProg_ok.noRecursion (by decide +kernel)) f hf,
        goodProg_tails f hf, Small.allIn (p := goodProg) rfl rfl rfl f hf⟩
    · exact absurd hm (by decide +kernel)
  · exact Small.fullOk (p := goodProg) rfl rfl (by decide +kernel)

end Verif
