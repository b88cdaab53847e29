import Verif.Props.Report
import Verif.Props.PlanPoints

/-!
# C91: what the number of sites in the report counts

The two lines of the report about sites at which registers are saved
(`/repo/src/instrument.cc:1100-1101`) against the snippets that were inserted.
-/

namespace Verif

/-- For each snippet at an entry, an exit or of the fast path: whether it was moved. -/
def Plan.moved : Plan → List Bool
  | .fastPath p cs => (match p.2 with | .stack m .. => m | _ => false) ::
      cs.map fun c => match c.2 with | .stack m => m | _ => false
  | .entryExit ps cs => (ps.map fun p => match p.2 with | .stack m .. => m | _ => false) ++
      cs.map fun c => match c.2 with | .stack m => m | _ => false
  | _ => []

/-- The snippets that could have been moved: those of functions with a summary, unless moving is
switched off. -/
def movable (fl : InstrFlags) (x : (BObject × BFunc) × (BFunc × Plan)) : List Bool :=
  if !fl.disableRegSaveOpt && (analysisOf fl x.1).isSome then x.2.2.moved else []

/-- The snippets which could have been moved, over all functions. -/
def allMovable (fl : InstrFlags) (xs : List (BObject × BFunc)) (l : List (BFunc × Plan)) : List Bool :=
  (xs.zip l).flatMap (movable fl)

/-- The two counters grew by the sites in the list, and those in it which were not moved. -/
def Counted (ms : List Bool) (st st' : Stats) : Prop :=
  st'.deadRegSite = st.deadRegSite + ms.length ∧
  st'.noDeadRegSite = st.noDeadRegSite + ms.countP (! ·)

theorem Counted.refl (st : Stats) : Counted [] st st := ⟨rfl, rfl⟩

theorem Counted.trans {a b : List Bool} {s t u : Stats} (h : Counted a s t) (h' : Counted b t u) :
    Counted (a ++ b) s u := by
  obtain ⟨h1, h2⟩ := h
  obtain ⟨h3, h4⟩ := h'
  exact ⟨by rw [h3, h1, List.length_append, Nat.add_assoc], by rw [h4, h2, List.countP_append, Nat.add_assoc]⟩

/-- Whether sites of this function are counted. -/
def opens (fl : InstrFlags) (s : Option FuncSummary) : Bool := !fl.disableRegSaveOpt && s.isSome

theorem move_counted {fl : InstrFlags} {f : BFunc} {s : Option FuncSummary} {p p' : Pt} {st st' : Stats}
    {m : Bool} (h : moveInstrumentation fl f s p st = some (m, p', st')) :
    Counted (if opens fl s then [m] else []) st st' := by
  unfold moveInstrumentation at h
  split at h
  · rename_i hd
    cases h
    rw [if_neg (by simp [opens, hd])]
    exact .refl _
  rename_i hd
  cases s with
  | none =>
    cases h
    rw [if_neg (by simp [opens])]
    exact .refl _
  | some s =>
    rw [if_pos (by simp [opens, hd])]
    dsimp only at h
    repeat' split at h
    all_goals first
      | (cases h; exact ⟨rfl, rfl⟩)
      | cases h

theorem pushes_counted {fl : InstrFlags} {f : BFunc} {s : Option FuncSummary} (ps : List Pt)
    {st st' : Stats} {l : List (Pt × PushKind)} (h : planPushes fl f s ps st = some (l, st')) :
    Counted (if opens fl s then l.map (fun p => match p.2 with | .stack m .. => m | _ => false) else [])
      st st' := by
  induction ps generalizing st l with
  | nil =>
    cases h
    split <;> exact .refl _
  | cons p ps ih =>
    simp only [planPushes, Option.bind_eq_bind, Option.bind_eq_some_iff] at h
    obtain ⟨⟨m, p1, st1⟩, h1, ⟨l1, st2⟩, h2, h3⟩ := h
    cases h3
    have := (move_counted h1).trans (ih h2)
    cases hc : opens fl s <;> rw [hc] at this <;> exact this

theorem checks_counted {fl : InstrFlags} {f : BFunc} {s : Option FuncSummary} (ps : List Pt)
    {st st' : Stats} {l : List (Pt × PopKind)} (h : planChecks fl f s ps st = some (l, st')) :
    Counted (if opens fl s then l.map (fun p => match p.2 with | .stack m .. => m | _ => false) else [])
      st st' := by
  induction ps generalizing st l with
  | nil =>
    cases h
    split <;> exact .refl _
  | cons p ps ih =>
    simp only [planChecks, Option.bind_eq_bind, Option.bind_eq_some_iff] at h
    obtain ⟨⟨m, p1, st1⟩, h1, ⟨l1, st2⟩, h2, h3⟩ := h
    cases h3
    have := (move_counted h1).trans (ih h2)
    cases hc : opens fl s <;> rw [hc] at this <;> exact this

theorem light_counted {fl : InstrFlags} {co : CodeObj} {f : BFunc} {s : Option FuncSummary}
    {st st' : Stats} {p : Plan} (h : instrumentLight fl co f s st = some (p, st')) :
    Counted (if opens fl s then p.moved else []) st st' := by
  unfold instrumentLight at h
  simp only [Option.bind_eq_bind, Option.bind_eq_some_iff] at h
  obtain ⟨r, _, h⟩ := h
  cases r with
  | some L =>
    cases h
    split <;> exact ⟨rfl, rfl⟩
  | none =>
    dsimp only at h
    split at h
    · cases h
      split <;> exact ⟨rfl, rfl⟩
    split at h
    · simp only [Option.bind_eq_some_iff] at h
      obtain ⟨⟨l1, st1⟩, h1, ⟨l2, st2⟩, h2, h3⟩ := h
      dsimp only at h1 h2 h3
      split at h3
      · cases h3
        have a := (pushes_counted _ h1).trans (checks_counted _ h2)
        cases hc : opens fl _ <;> rw [hc] at a <;> exact ⟨a.1, a.2⟩
      · cases h3
    · simp only [Option.bind_eq_some_iff] at h
      obtain ⟨⟨l1, st1⟩, h1, ⟨l2, st2⟩, h2, h3⟩ := h
      cases h3
      have a := (pushes_counted _ h1).trans (checks_counted _ h2)
      cases hc : opens fl _ <;> rw [hc] at a <;> exact ⟨a.1, a.2⟩

/-- The functions added by a part of the run, and the sites counted in it. -/
def SiteTally (fl : InstrFlags) (xs : List (BObject × BFunc)) (r r' : List (BFunc × Plan) × Stats) :
    Prop :=
  ∃ add, r'.1 = r.1 ++ add ∧ add.length = xs.length ∧ Counted (allMovable fl xs add) r.2 r'.2

theorem SiteTally.refl {fl : InstrFlags} {r : List (BFunc × Plan) × Stats} : SiteTally fl [] r r :=
  ⟨[], by simp, rfl, .refl _⟩

theorem SiteTally.trans {fl : InstrFlags} {xs ys : List (BObject × BFunc)}
    {a b c : List (BFunc × Plan) × Stats} (h : SiteTally fl xs a b) (h' : SiteTally fl ys b c) :
    SiteTally fl (xs ++ ys) a c := by
  obtain ⟨l, h1, h2, h3⟩ := h
  obtain ⟨m, k1, k2, k3⟩ := h'
  refine ⟨l ++ m, by rw [k1, h1, List.append_assoc], by simp [h2, k2], ?_⟩
  unfold allMovable
  rw [List.zip_append h2.symm, List.flatMap_append]
  exact h3.trans k3

theorem function_sites {fl : InstrFlags} {skip : List Nat} {o : BObject} {f : BFunc} {p : Plan}
    {l : List (BFunc × Plan)} {st st' : Stats}
    (h : instrumentFunction fl skip o.code
      (if fl.shadowStack = "light" then o.analyses else fun _ => none) f st = some (p, st')) :
    SiteTally fl [(o, f)] (l, st) (l ++ [(f, p)], st') := by
  refine ⟨[(f, p)], rfl, rfl, ?_⟩
  have e : allMovable fl [(o, f)] [(f, p)] = movable fl ((o, f), (f, p)) := by simp [allMovable]
  rw [e]
  unfold instrumentFunction at h
  dsimp only at h
  split at h
  · rename_i hl
    have ea : analysisOf fl (o, f) = o.analyses f.base := by simp [analysisOf, hl]
    split at h
    · cases h
    rename_i st1 hst
    have hc : st1.deadRegSite = st.deadRegSite ∧ st1.noDeadRegSite = st.noDeadRegSite := by
      cases hx : o.analyses f.base with
      | none =>
        rw [hx] at hst
        cases hst
        exact ⟨rfl, rfl⟩
      | some x =>
        obtain ⟨s, ws⟩ := x
        rw [hx] at hst
        obtain ⟨k1, _⟩ := countWrites_rest _ _ _ _ hst
        constructor <;> (rw [k1]; rfl)
    split at h
    · cases h
      unfold movable
      split <;> exact ⟨hc.1, hc.2⟩
    · have := light_counted h
      have eo : opens fl ((o.analyses f.base).map Prod.fst) =
          (!fl.disableRegSaveOpt && (analysisOf fl (o, f)).isSome) := by
        rw [ea, opens, Option.isSome_map]
      rw [eo] at this
      unfold movable
      obtain ⟨t1, t2⟩ := this
      exact ⟨by rw [t1, hc.1], by rw [t2, hc.2]⟩
  · cases h
    unfold movable
    split <;> exact ⟨rfl, rfl⟩

theorem modules_sites {fl : InstrFlags} {skip : List Nat} {o : BObject} (fs : List BFunc)
    {r r' : List (BFunc × Plan) × Stats}
    (h : fs.foldlM (moduleStep fl skip o.code
      (if fl.shadowStack = "light" then o.analyses else fun _ => none)) r = some r') :
    SiteTally fl ((fs.filter fun f => !f.noReturn && f.region = ".text").map fun f => (o, f)) r r' := by
  induction fs generalizing r with
  | nil => cases h; exact .refl
  | cons f fs ih =>
    rw [List.foldlM_cons, Option.bind_eq_bind, Option.bind_eq_some_iff] at h
    obtain ⟨r1, h1, h2⟩ := h
    have ht := ih h2
    unfold moduleStep at h1
    split at h1
    · rename_i hn
      cases h1
      simpa [hn] using ht
    rename_i hn
    split at h1
    · rename_i hr
      cases h1
      simpa [hr] using ht
    rename_i hr
    obtain ⟨⟨p, st⟩, h3, h4⟩ := Option.map_eq_some_iff.mp h1
    cases h4
    have hn : f.noReturn = false := by simpa using hn
    have hr : f.region = ".text" := by simpa using hr
    have e : (f :: fs).filter (fun f => !f.noReturn && f.region = ".text") =
        f :: fs.filter fun f => !f.noReturn && f.region = ".text" := by simp [hn, hr]
    rw [e, List.map_cons]
    exact (function_sites h3).trans (xs := [_]) ht

theorem object_sites {fl : InstrFlags} {skip : List Nat} {o : BObject} (ms : List (List BFunc))
    {r r' : List (BFunc × Plan) × Stats}
    (h : ms.foldlM (fun r m => m.foldlM (moduleStep fl skip o.code
      (if fl.shadowStack = "light" then o.analyses else fun _ => none)) r) r = some r') :
    SiteTally fl ((ms.flatten.filter fun f => !f.noReturn && f.region = ".text").map fun f => (o, f)) r r' := by
  induction ms generalizing r with
  | nil => cases h; exact .refl
  | cons m ms ih =>
    rw [List.foldlM_cons, Option.bind_eq_bind, Option.bind_eq_some_iff] at h
    obtain ⟨r1, h1, h2⟩ := h
    rw [List.flatten_cons, List.filter_append, List.map_append]
    exact (modules_sites m h1).trans (ih h2)

theorem run_sites {fl : InstrFlags} {skip : List Nat} (os : List BObject)
    {r r' : List (BFunc × Plan) × Stats}
    (h : os.foldlM (fun r o =>
      if !fl.libs && isSharedLibrary o.path then some r else instrumentObject fl skip o r) r = some r') :
    SiteTally fl (treated fl os) r r' := by
  induction os generalizing r with
  | nil => cases h; exact .refl
  | cons o os ih =>
    rw [List.foldlM_cons, Option.bind_eq_bind, Option.bind_eq_some_iff] at h
    obtain ⟨r1, h1, h2⟩ := h
    have ht := ih h2
    have hno : considered fl o = false → treated fl (o :: os) = treated fl os := by
      intro e
      simp [treated, e]
    split at h1
    · rename_i hc
      cases h1
      rw [hno (by
        simp only [Bool.and_eq_true, Bool.not_eq_true'] at hc
        simp [considered, hc])]
      exact ht
    rename_i hc
    unfold instrumentObject at h1
    split at h1
    · rename_i hs
      cases h1
      rw [hno (by simp [considered, hs])]
      exact ht
    · rename_i hs
      have hyes : considered fl o = true := by
        have h1 : (fl.libs || !isSharedLibrary o.path) = true := by
          cases hl : fl.libs <;> cases hp : isSharedLibrary o.path <;> simp [hl, hp] at hc ⊢
        unfold considered
        rw [h1]
        simpa [Classical.or_iff_not_imp_left] using hs
      have e : treated fl (o :: os) =
          ((o.modules.flatten.filter fun f => !f.noReturn && f.region = ".text").map fun f => (o, f)) ++
            treated fl os := by
        simp [treated, hyes]
      rw [e]
      exact (object_sites _ h1).trans ht

/-- **C91, sites outside lowered functions.** The report's two numbers about saving registers are: how
many snippets were placed at entries, exits and by the fast path in functions with a summary, and how many
of these were not moved to where registers are free; both are 0 if moving is switched off. -/
theorem C91_dead_sites {fl : InstrFlags} {skip : List Nat} {objs : List BObject}
    {l : List (BFunc × Plan)} {st : Stats} (h : instrument fl skip objs = some (l, st)) :
    (report l st).sites = (allMovable fl (treated fl objs) l).length ∧
    (report l st).noDead = (allMovable fl (treated fl objs) l).countP (! ·) := by
  obtain ⟨add, h1, _, h3, h4⟩ := run_sites objs h
  simp only [List.nil_append] at h1
  subst h1
  exact ⟨h3.trans (Nat.zero_add _), h4.trans (Nat.zero_add _)⟩

/-- An object with `fastFunc`. -/
def fastObj : BObject := ⟨"/bin/prog", [[fastFunc]], fastCode, fun _ => some (fastSum, [])⟩

/-- Example for `C91_dead_sites`: three snippets, of which one is not moved. -/
example : (instrument {} [] [fastObj]).map (fun r => ((report r.1 r.2).sites, (report r.1 r.2).noDead)) =
    some (3, 1) := by decide +kernel

end Verif
