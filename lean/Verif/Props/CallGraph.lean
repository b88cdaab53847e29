import Verif.CallGraph

/-!
# C31: every call is accounted for
-/

namespace Verif

/-! ## Specification -/

/-- `e` leaves block `b` of function `f`. -/
def HasEdge (co : CodeObj) (f : Func) (b : Blk) (e : Edge) : Prop :=
  b ∈ co.blocks f ∧ e ∈ co.targets b

/-- Control may go anywhere: an edge without target, other than a return or an indirect tail
call. -/
def Unresolved (e : Edge) : Prop :=
  e.sink = true ∧ e.type ≠ .ret ∧ ¬ (e.type = .indirect ∧ e.interproc = true)

/-- A call of the library function `name`. -/
def LibCall (co : CodeObj) (e : Edge) (name : List Char) : Prop :=
  e.type = .call ∧ e.sink = false ∧ co.linkage (co.start e.trg) = some name

/-- `g` is the function that starts at block `b`. -/
def StartsAt (co : CodeObj) (g : Func) (b : Blk) : Prop :=
  ∃ pre post, co.funcsAt b = pre ++ g :: post ∧ co.entry g = b ∧ ∀ h ∈ pre, co.entry h ≠ b

/-- A direct call of `g`. -/
def DirectCall (co : CodeObj) (e : Edge) (g : Func) : Prop :=
  e.type = .call ∧ e.sink = false ∧ co.linkage (co.start e.trg) = none ∧ StartsAt co g e.trg

/-! ## One edge -/

theorem calleeAt_iff (co : CodeObj) (b : Blk) (g : Func) :
    calleeAt co b = some g ↔ StartsAt co g b := by
  unfold calleeAt StartsAt
  rw [List.find?_eq_some_iff_append]
  constructor
  · rintro ⟨h, pre, post, h1, h2⟩
    exact ⟨pre, post, h1, by simpa using h, fun x hx => by simpa using h2 x hx⟩
  · rintro ⟨pre, post, h1, h, h2⟩
    exact ⟨by simpa using h, pre, post, h1, fun x hx => by simpa using h2 x hx⟩

/-- The five possible effects of an edge. -/
theorem updateEdge_cases (co : CodeObj) (b : Blk) (s : FuncSummary) (e : Edge) :
    (Unresolved e ∧ updateEdge co b s e = { s with hasUnknownCf := true }) ∨
    (¬ Unresolved e ∧ e.type = .indirect ∧ e.sink = false ∧
      updateEdge co b s e = { s with hasIndirectCf := true }) ∨
    (¬ Unresolved e ∧ ∃ name, LibCall co e name ∧
      updateEdge co b s e = { s with pltCalls := mapSet s.pltCalls (co.last b) name }) ∨
    (¬ Unresolved e ∧ ∃ g, DirectCall co e g ∧
      updateEdge co b s e = { s with callees := setInsert s.callees g }) ∨
    (¬ Unresolved e ∧ ¬ (e.type = .indirect ∧ e.sink = false) ∧ (∀ name, ¬ LibCall co e name) ∧
      (∀ g, ¬ DirectCall co e g) ∧ updateEdge co b s e = s) := by
  obtain ⟨id, src, trg, type, sink, interproc⟩ := e
  unfold Unresolved LibCall DirectCall updateEdge
  cases sink
  · -- not a sink
    cases type <;> try (simp; done)
    cases hl : co.linkage (co.start trg) with
    | some name => simp
    | none =>
      cases hc : calleeAt co trg with
      | some g =>
        have := (calleeAt_iff co trg g).mp hc
        refine .inr (.inr (.inr (.inl ⟨by simp, g, ⟨rfl, rfl, rfl, this⟩, by simp⟩)))
      | none =>
        have : ∀ g, ¬ StartsAt co g trg := by
          intro g hg
          rw [(calleeAt_iff co trg g).mpr hg] at hc
          cases hc
        simp [this]
  · cases type <;> cases interproc <;> simp

/-! ## One function -/

/-- The edges of a function with their blocks. -/
def edgesOf (co : CodeObj) (f : Func) : List (Blk × Edge) :=
  (co.blocks f).flatMap (fun b => (co.targets b).map (b, ·))

theorem mem_edgesOf (co : CodeObj) (f : Func) (b : Blk) (e : Edge) :
    (b, e) ∈ edgesOf co f ↔ HasEdge co f b e := by
  unfold edgesOf HasEdge
  simp only [List.mem_flatMap, List.mem_map]
  constructor
  · rintro ⟨b', hb, e', he, h⟩
    cases h
    exact ⟨hb, he⟩
  · rintro ⟨hb, he⟩
    exact ⟨b, hb, e, he, rfl⟩

theorem updateCallees_fold (co : CodeObj) (f : Func) (s : FuncSummary) :
    updateCallees co f s = (edgesOf co f).foldl (fun s p => updateEdge co p.1 s p.2) s := by
  unfold updateCallees edgesOf
  induction co.blocks f generalizing s with
  | nil => rfl
  | cons b l ih =>
    rw [List.foldl_cons, List.flatMap_cons, List.foldl_append, ih, List.foldl_map]

theorem exists_edge_cons (P : Blk → Edge → Prop) (b : Blk) (e : Edge) (l : List (Blk × Edge)) :
    (∃ b' e', (b', e') ∈ (b, e) :: l ∧ P b' e') ↔ P b e ∨ ∃ b' e', (b', e') ∈ l ∧ P b' e' := by
  constructor
  · rintro ⟨b', e', hm, h⟩
    rcases List.mem_cons.mp hm with hm | hm
    · cases hm; exact .inl h
    · exact .inr ⟨b', e', hm, h⟩
  · rintro (h | ⟨b', e', hm, h⟩)
    · exact ⟨b, e, by simp, h⟩
    · exact ⟨b', e', by simp [hm], h⟩

/-- What the analysis of one function body records, exactly. -/
theorem foldEdges_facts (co : CodeObj) (l : List (Blk × Edge)) (s : FuncSummary) :
    let s' := l.foldl (fun s p => updateEdge co p.1 s p.2) s
    (s'.hasUnknownCf = true ↔ s.hasUnknownCf = true ∨ ∃ b e, (b, e) ∈ l ∧ Unresolved e) ∧
    (s'.hasIndirectCf = true ↔ s.hasIndirectCf = true ∨
      ∃ b e, (b, e) ∈ l ∧ e.type = .indirect ∧ e.sink = false) ∧
    (∀ g, g ∈ s'.callees ↔ g ∈ s.callees ∨ ∃ b e, (b, e) ∈ l ∧ DirectCall co e g) ∧
    (∀ a n, (a, n) ∈ s'.pltCalls → (a, n) ∈ s.pltCalls ∨
      ∃ b e, (b, e) ∈ l ∧ a = co.last b ∧ LibCall co e n) ∧
    (∀ a n, (a, n) ∈ s.pltCalls → ∃ n', (a, n') ∈ s'.pltCalls) ∧
    (∀ b e n, (b, e) ∈ l → LibCall co e n → ∃ n', (co.last b, n') ∈ s'.pltCalls) := by
  induction l generalizing s with
  | nil => simp; intro a n h; exact ⟨n, h⟩
  | cons p l ih =>
    obtain ⟨b, e⟩ := p
    simp only [List.foldl_cons]
    obtain ⟨i1, i2, i3, i4, i5, i6⟩ := ih (updateEdge co b s e)
    simp only [exists_edge_cons]
    -- it is enough to look at the one edge
    suffices h : ((updateEdge co b s e).hasUnknownCf = true ↔
          s.hasUnknownCf = true ∨ Unresolved e) ∧
        ((updateEdge co b s e).hasIndirectCf = true ↔
          s.hasIndirectCf = true ∨ (e.type = .indirect ∧ e.sink = false)) ∧
        (∀ g, g ∈ (updateEdge co b s e).callees ↔ g ∈ s.callees ∨ DirectCall co e g) ∧
        (∀ a n, (a, n) ∈ (updateEdge co b s e).pltCalls → (a, n) ∈ s.pltCalls ∨
          (a = co.last b ∧ LibCall co e n)) ∧
        (∀ a n, (a, n) ∈ s.pltCalls → ∃ n', (a, n') ∈ (updateEdge co b s e).pltCalls) ∧
        (∀ n, LibCall co e n → ∃ n', (co.last b, n') ∈ (updateEdge co b s e).pltCalls) by
      obtain ⟨h1, h2, h3, h4, h5, h6⟩ := h
      refine ⟨by rw [i1, h1, or_assoc], by rw [i2, h2, or_assoc],
        fun g => by rw [i3, h3, or_assoc], ?_, ?_, ?_⟩
      · intro a n hm
        rcases i4 a n hm with h | h
        · rcases h4 a n h with h | h
          · exact .inl h
          · exact .inr (.inl h)
        · exact .inr (.inr h)
      · intro a n hm
        obtain ⟨n', hn'⟩ := h5 a n hm
        exact i5 a n' hn'
      · intro b' e' n hm hl
        rcases List.mem_cons.mp hm with hm | hm
        · cases hm
          obtain ⟨n', hn'⟩ := h6 n hl
          exact i5 _ n' hn'
        · exact i6 b' e' n hm hl
    clear i1 i2 i3 i4 i5 i6 ih
    rcases updateEdge_cases co b s e with ⟨hu, h⟩ | ⟨hu, ht, hs, h⟩ | ⟨hu, name, hn, h⟩ |
      ⟨hu, g, hg, h⟩ | ⟨hu, hi, hl, hd, h⟩ <;> rw [h]
    · have hs := hu.1
      refine ⟨by simp [hu], by simp [hs], by simp [DirectCall, hs], fun a n h => .inl h,
        fun a n h => ⟨n, h⟩, by simp [LibCall, hs]⟩
    · refine ⟨by simp [hu], by simp [ht, hs], by simp [DirectCall, ht], fun a n h => .inl h,
        fun a n h => ⟨n, h⟩, by simp [LibCall, ht]⟩
    · have ht := hn.1
      have hl := hn.2.2
      refine ⟨by simp [hu], by simp [ht], by simp [DirectCall, hl], ?_, ?_, ?_⟩
      · intro a n hm
        rcases mem_mapSet.mp hm with h | h
        · cases h; exact .inr ⟨rfl, hn⟩
        · exact .inl h.1
      · intro a n hm
        by_cases ha : a = co.last b
        · exact ⟨name, mem_mapSet.mpr (.inl (by rw [ha]))⟩
        · exact ⟨n, mem_mapSet.mpr (.inr ⟨hm, ha⟩)⟩
      · intro n _
        exact ⟨name, mem_mapSet.mpr (.inl rfl)⟩
    · have ht := hg.1
      have hl := hg.2.2.1
      refine ⟨by simp [hu], by simp [ht], ?_, fun a n h => .inl h, fun a n h => ⟨n, h⟩,
        by simp [LibCall, hl]⟩
      intro x
      rw [mem_setInsert]
      constructor
      · rintro (rfl | h)
        · exact .inr hg
        · exact .inl h
      · rintro (h | h)
        · exact .inr h
        · have h1 := (calleeAt_iff co e.trg x).mpr h.2.2.2
          have h2 := (calleeAt_iff co e.trg g).mpr hg.2.2.2
          rw [h1] at h2; cases h2
          exact .inl rfl
    · exact ⟨by simp [hu], by simp only [hi, or_false], by simp [hd], fun a n h => .inl h,
        fun a n h => ⟨n, h⟩, fun n h => absurd h (hl n)⟩

/-- The record of one function, before callers are filled in. -/
def bodyOf (co : CodeObj) (f : Func) : FuncSummary := updateCallees co f {}

theorem updateEdge_callers (co : CodeObj) (b : Blk) (s : FuncSummary) (e : Edge) (l : List Func) :
    updateEdge co b { s with callers := l } e = { updateEdge co b s e with callers := l } := by
  unfold updateEdge
  split
  · rfl
  split
  · rfl
  split
  · rfl
  split
  · rfl
  split
  · rfl
  split <;> rfl

theorem foldEdges_callers (co : CodeObj) (l : List (Blk × Edge)) (s : FuncSummary)
    (x : List Func) :
    l.foldl (fun s p => updateEdge co p.1 s p.2) { s with callers := x } =
      { l.foldl (fun s p => updateEdge co p.1 s p.2) s with callers := x } := by
  induction l generalizing s with
  | nil => rfl
  | cons p l ih => simp only [List.foldl_cons, updateEdge_callers, ih]

theorem updateCallees_callers (co : CodeObj) (f : Func) (s : FuncSummary) (x : List Func) :
    updateCallees co f { s with callers := x } = { updateCallees co f s with callers := x } := by
  rw [updateCallees_fold, updateCallees_fold, foldEdges_callers]

theorem bodyOf_callers (co : CodeObj) (f : Func) : (bodyOf co f).callers = [] := by
  have := updateCallees_callers co f {} []
  exact congrArg FuncSummary.callers this

/-! ## The traversal -/

/-- State of the traversal while the functions in `stack` are being processed. -/
structure CgInv (co : CodeObj) (t : Trav) (stack : List Func) : Prop where
  body : ∀ g, { t.sums g with callers := [] } = if g ∈ t.visited then bodyOf co g else {}
  only : ∀ g f, f ∈ (t.sums g).callers → f ∈ t.visited ∧ g ∈ (bodyOf co f).callees
  all : ∀ f ∈ t.visited, f ∉ stack → ∀ g ∈ (bodyOf co f).callees, f ∈ (t.sums g).callers

/-- Nothing recorded is lost. -/
structure CgGrow (t t' : Trav) : Prop where
  visited : ∀ g ∈ t.visited, g ∈ t'.visited
  callers : ∀ g f, f ∈ (t.sums g).callers → f ∈ (t'.sums g).callers

theorem CgGrow.refl (t : Trav) : CgGrow t t := ⟨fun _ h => h, fun _ _ h => h⟩

theorem CgGrow.trans {t t' t'' : Trav} (h : CgGrow t t') (h' : CgGrow t' t'') : CgGrow t t'' :=
  ⟨fun g hg => h'.visited g (h.visited g hg), fun g f hf => h'.callers g f (h.callers g f hf)⟩

/-- Recording a caller. -/
theorem CgInv.record {co : CodeObj} {t : Trav} {stack : List Func} {f c : Func}
    (h : CgInv co t stack) (hf : f ∈ t.visited) (hc : c ∈ (bodyOf co f).callees) :
    let t' : Trav := { t with sums := t.sums.set c { t.sums c with
      callers := setInsert (t.sums c).callers f } }
    CgInv co t' stack ∧ CgGrow t t' ∧ f ∈ (t'.sums c).callers := by
  intro t'
  have same : t'.sums c = { t.sums c with callers := setInsert (t.sums c).callers f } :=
    Sums.set_same _ _ _
  have other : ∀ g, g ≠ c → t'.sums g = t.sums g := fun g hg => Sums.set_other _ _ hg
  have grow : ∀ g x, x ∈ (t.sums g).callers → x ∈ (t'.sums g).callers := by
    intro g x hx
    by_cases hg : g = c
    · subst hg; rw [same]; exact mem_setInsert.mpr (.inr hx)
    · rw [other g hg]; exact hx
  refine ⟨⟨?_, ?_, ?_⟩, ⟨fun _ h => h, grow⟩, ?_⟩
  · intro g
    rw [← h.body g]
    by_cases hg : g = c
    · subst hg; rw [same]
    · rw [other g hg]
  · intro g x hx
    by_cases hg : g = c
    · subst hg
      rw [same] at hx
      rcases mem_setInsert.mp hx with rfl | hx
      · exact ⟨hf, hc⟩
      · exact h.only g x hx
    · rw [other g hg] at hx; exact h.only g x hx
  · intro x hx hxs g hg
    exact grow g x (h.all x hx hxs g hg)
  · rw [same]; exact mem_setInsert.mpr (.inl rfl)

/-- The state in which the loop over the callees of `f` starts. -/
def cgStart (co : CodeObj) (t : Trav) (f : Func) : Trav where
  sums := t.sums.set f { bodyOf co f with callers := (t.sums f).callers }
  visited := f :: t.visited

theorem cgVisit_start {co : CodeObj} {t : Trav} {f : Func} {stack : List Func}
    (hinv : CgInv co t stack) (hfv : f ∉ t.visited) (n : Nat) :
    cgVisit co (n + 1) t f =
      (bodyOf co f).callees.foldlM (cgCallee co (cgVisit co n) f) (cgStart co t f) := by
  have hb : { t.sums f with callers := [] } = ({} : FuncSummary) := by
    rw [hinv.body f, if_neg hfv]
  have hupd : updateCallees co f (t.sums f) =
      { bodyOf co f with callers := (t.sums f).callers } := by
    have : t.sums f = { ({} : FuncSummary) with callers := (t.sums f).callers } := by
      rw [← hb]
    rw [this, updateCallees_callers]
    rfl
  simp only [cgVisit]
  rw [hupd]
  rfl

theorem cgStart_inv {co : CodeObj} {t : Trav} {f : Func} {stack : List Func}
    (hinv : CgInv co t stack) :
    CgInv co (cgStart co t f) (f :: stack) ∧ CgGrow t (cgStart co t f) := by
  have hset : ∀ g, ((cgStart co t f).sums g).callers = (t.sums g).callers := by
    intro g
    by_cases hg : g = f
    · subst hg; simp only [cgStart, Sums.set_same]
    · simp only [cgStart, Sums.set_other _ _ hg]
  refine ⟨⟨?_, ?_, ?_⟩, ⟨fun g hg => List.mem_cons_of_mem _ hg, fun g x hx => by rw [hset]; exact hx⟩⟩
  · intro g
    by_cases hg : g = f
    · subst hg
      simp only [cgStart, Sums.set_same, List.mem_cons_self, if_true]
      rw [show ({ bodyOf co g with callers := [] } : FuncSummary) =
        { bodyOf co g with callers := (bodyOf co g).callers } by rw [bodyOf_callers]]
    · simp only [cgStart, Sums.set_other _ _ hg, List.mem_cons, hg, false_or]
      exact hinv.body g
  · intro g x hx
    rw [hset] at hx
    have := hinv.only g x hx
    exact ⟨List.mem_cons_of_mem _ this.1, this.2⟩
  · intro x hx hxs g hg
    rw [hset]
    rcases List.mem_cons.mp hx with e | hx
    · exact absurd (by rw [e]; exact List.mem_cons_self) hxs
    · exact hinv.all x hx (fun hm => hxs (List.mem_cons_of_mem _ hm)) g hg

theorem cgVisit_inv {co : CodeObj} : ∀ (n : Nat) (t t' : Trav) (f : Func) (stack : List Func),
    CgInv co t stack → f ∉ t.visited → cgVisit co n t f = some t' →
      CgInv co t' stack ∧ CgGrow t t' ∧ f ∈ t'.visited := by
  intro n
  induction n with
  | zero => intro t t' f stack _ _ h; cases h
  | succ n ih =>
    intro t t' f stack hinv hfv h
    rw [cgVisit_start hinv hfv] at h
    obtain ⟨h0, hg0⟩ := cgStart_inv (f := f) hinv
    have key := foldlM_prefix
      (fun done u => CgInv co u (f :: stack) ∧ CgGrow t u ∧ f ∈ u.visited ∧
        ∀ c ∈ done, f ∈ (u.sums c).callers)
      (cgCallee co (cgVisit co n) f) (bodyOf co f).callees []
      (cgStart co t f) t'
      (by
        rintro done c u u' hcm ⟨hu, hgr, hfu, hdone⟩ hstep
        simp only [cgCallee] at hstep
        split at hstep
        · obtain ⟨r1, r2, r3⟩ := hu.record hfu hcm
          split at hstep
          · cases hstep
            refine ⟨r1, hgr.trans r2, hfu, ?_⟩
            intro d hd
            rcases List.mem_append.mp hd with hd | hd
            · exact r2.callers d f (hdone d hd)
            · have : d = c := by simpa using hd
              subst this; exact r3
          · rename_i hcv
            obtain ⟨i1, i2, i3⟩ := ih _ u' c (f :: stack) r1 hcv hstep
            refine ⟨i1, (hgr.trans r2).trans i2, i2.visited f hfu, ?_⟩
            intro d hd
            rcases List.mem_append.mp hd with hd | hd
            · exact i2.callers d f (r2.callers d f (hdone d hd))
            · have : d = c := by simpa using hd
              subst this; exact i2.callers d f r3
        · cases hstep)
      ⟨h0, hg0, List.mem_cons_self, by simp⟩ h
    obtain ⟨k1, k2, k3, k4⟩ := key
    refine ⟨⟨k1.body, k1.only, ?_⟩, k2, k3⟩
    intro x hx hxs g hg
    by_cases hxf : x = f
    · subst hxf; exact k4 g hg
    · exact k1.all x hx (by
        intro hm
        rcases List.mem_cons.mp hm with e | hm
        · exact hxf e
        · exact hxs hm) g hg

theorem cgRun_inv {co : CodeObj} {S' : Sums} (h : cgRun co (fun _ => {}) = some S') :
    (∀ f ∈ co.funcs, { S' f with callers := [] } = bodyOf co f) ∧
    (∀ f ∈ co.funcs, ∀ g, f ∈ (S' g).callers ↔ g ∈ (bodyOf co f).callees) := by
  unfold cgRun at h
  cases hf : co.funcs.foldlM (cgTop co) { sums := fun _ => {}, visited := [] } with
  | none => rw [hf] at h; cases h
  | some t =>
    rw [hf] at h
    cases h
    have key := foldlM_prefix
      (fun done u => CgInv co u [] ∧ ∀ f ∈ done, f ∈ u.visited) (cgTop co) co.funcs []
      { sums := fun _ => {}, visited := [] } t
      (by
        rintro done g u u' _ ⟨hu, hd⟩ hstep
        unfold cgTop at hstep
        split at hstep
        · cases hstep
          refine ⟨hu, fun x hx => ?_⟩
          rcases List.mem_append.mp hx with hx | hx
          · exact hd x hx
          · have : x = g := by simpa using hx
            subst this; assumption
        · rename_i hgv
          obtain ⟨i1, i2, i3⟩ := cgVisit_inv _ u u' g [] hu hgv hstep
          refine ⟨i1, fun x hx => ?_⟩
          rcases List.mem_append.mp hx with hx | hx
          · exact i2.visited x (hd x hx)
          · have : x = g := by simpa using hx
            subst this; exact i3)
      ⟨⟨by simp, by simp, by simp⟩, by simp⟩ hf
    obtain ⟨k1, k2⟩ := key
    refine ⟨fun f hf => ?_, fun f hf g => ⟨fun h => (k1.only g f h).2,
      fun h => k1.all f (k2 f (by simpa using hf)) (by simp) g h⟩⟩
    rw [k1.body f, if_pos (k2 f (by simpa using hf))]

/-! ## The property -/

/-- What the summary of `f` must say about its calls. -/
structure CallsRecorded (co : CodeObj) (f : Func) (s : FuncSummary) : Prop where
  /-- unknown control flow is noted exactly when some edge leads nowhere known -/
  unknown : s.hasUnknownCf = true ↔ ∃ b e, HasEdge co f b e ∧ Unresolved e
  /-- resolved indirect jumps are noted exactly when there are any -/
  indirect : s.hasIndirectCf = true ↔
    ∃ b e, HasEdge co f b e ∧ e.type = .indirect ∧ e.sink = false
  /-- the callees are exactly the targets of direct calls -/
  callees : ∀ g, g ∈ s.callees ↔ ∃ b e, HasEdge co f b e ∧ DirectCall co e g
  /-- a recorded library call exists -/
  plt_sound : ∀ a n, (a, n) ∈ s.pltCalls →
    ∃ b e, HasEdge co f b e ∧ a = co.last b ∧ LibCall co e n
  /-- every call site of a library function is recorded -/
  plt_complete : ∀ b e n, HasEdge co f b e → LibCall co e n →
    ∃ n', (co.last b, n') ∈ s.pltCalls

/-- **C31.** After the pass every function's summary accounts for its edges, and callers are
the inverse of callees. -/
theorem C31_calls_recorded (co : CodeObj) (S' : Sums) (h : cgRun co (fun _ => {}) = some S')
    (f : Func) (hf : f ∈ co.funcs) :
    CallsRecorded co f (S' f) ∧ ∀ g, f ∈ (S' g).callers ↔ g ∈ (S' f).callees := by
  obtain ⟨h1, h2⟩ := cgRun_inv h
  have hb := h1 f hf
  obtain ⟨f1, f2, f3, f4, _, f6⟩ := foldEdges_facts co (edgesOf co f) {}
  rw [← updateCallees_fold] at f1 f2 f3 f4 f6
  have e1 : (S' f).hasUnknownCf = (bodyOf co f).hasUnknownCf := by rw [← hb]
  have e2 : (S' f).hasIndirectCf = (bodyOf co f).hasIndirectCf :=
    by rw [← hb]
  have e3 : (S' f).callees = (bodyOf co f).callees := by rw [← hb]
  have e4 : (S' f).pltCalls = (bodyOf co f).pltCalls := by rw [← hb]
  simp only [mem_edgesOf] at f1 f2 f3 f4 f6
  change ((bodyOf co f).hasUnknownCf = true ↔ _) at f1
  change ((bodyOf co f).hasIndirectCf = true ↔ _) at f2
  change (∀ g, g ∈ (bodyOf co f).callees ↔ _) at f3
  change (∀ a n, (a, n) ∈ (bodyOf co f).pltCalls → _) at f4
  refine ⟨⟨?_, ?_, ?_, ?_, ?_⟩, fun g => by rw [e3]; exact h2 f hf g⟩
  · rw [e1]; simpa using f1
  · rw [e2]; simpa using f2
  · rw [e3]; simpa using f3
  · rw [e4]; simpa using f4
  · rw [e4]; exact f6

/-- **C31, reading for one call edge.** A call is unknown control flow, a recorded library
call, a recorded callee, or jumps to a block at which no function starts. -/
theorem C31_each_call (co : CodeObj) (S' : Sums) (h : cgRun co (fun _ => {}) = some S')
    (f : Func) (hf : f ∈ co.funcs) (b : Blk) (e : Edge) (he : HasEdge co f b e)
    (hcall : e.type = .call) :
    (S' f).hasUnknownCf = true ∨ (∃ n, (co.last b, n) ∈ (S' f).pltCalls) ∨
    (∃ g ∈ (S' f).callees, co.entry g = e.trg) ∨ (∀ g, ¬ StartsAt co g e.trg) := by
  have hr := (C31_calls_recorded co S' h f hf).1
  by_cases hs : e.sink = true
  · exact .inl (hr.unknown.mpr ⟨b, e, he, hs, by simp [hcall], by simp [hcall]⟩)
  · have hs' : e.sink = false := by simpa using hs
    cases hl : co.linkage (co.start e.trg) with
    | some n => exact .inr (.inl (hr.plt_complete b e n he ⟨hcall, hs', hl⟩))
    | none =>
      by_cases hg : ∃ g, StartsAt co g e.trg
      · obtain ⟨g, hg⟩ := hg
        exact .inr (.inr (.inl ⟨g, (hr.callees g).mpr ⟨b, e, he, hcall, hs', hl, hg⟩,
          hg.choose_spec.choose_spec.2.1⟩))
      · exact .inr (.inr (.inr (fun g h => hg ⟨g, h⟩)))

/-- **C31, tail jumps.** An edge which is not a call never adds a callee or a library call. -/
theorem C31_tail_jump (co : CodeObj) (b : Blk) (s : FuncSummary) (e : Edge)
    (h : e.type ≠ .call) :
    (updateEdge co b s e).callees = s.callees ∧ (updateEdge co b s e).pltCalls = s.pltCalls := by
  rcases updateEdge_cases co b s e with ⟨_, h'⟩ | ⟨_, _, _, h'⟩ | ⟨_, _, hn, _⟩ |
    ⟨_, _, hg, _⟩ | ⟨_, _, _, _, h'⟩
  · rw [h']; exact ⟨rfl, rfl⟩
  · rw [h']; exact ⟨rfl, rfl⟩
  · exact absurd hn.1 h
  · exact absurd hg.1 h
  · rw [h']; exact ⟨rfl, rfl⟩

/-! ## The recursion bound is large enough -/

theorem cgVisit_total {co : CodeObj}
    (hc : ∀ f ∈ co.funcs, ∀ c ∈ (bodyOf co f).callees, c ∈ co.funcs) :
    ∀ (n : Nat) (t : Trav) (f : Func) (stack : List Func), CgInv co t stack → f ∈ co.funcs →
      f ∉ t.visited → unvisited co.funcs t.visited < n + 1 →
      ∃ t', cgVisit co (n + 1) t f = some t' := by
  intro n
  induction n with
  | zero =>
    intro t f _ _ hf hn hlt
    have := unvisited_cons co.funcs t.visited f hf hn
    omega
  | succ n ih =>
    intro t f stack hinv hf hn hlt
    have hlt' := unvisited_cons co.funcs t.visited f hf hn
    have step : ∀ (l : List Func), (∀ c ∈ l, c ∈ (bodyOf co f).callees) → ∀ u : Trav,
        CgInv co u (f :: stack) → f ∈ u.visited →
        unvisited co.funcs u.visited < n + 1 →
        ∃ u', l.foldlM (cgCallee co (cgVisit co (n + 1)) f) u = some u' := by
      intro l
      induction l with
      | nil => intro _ u _ _ _; exact ⟨u, rfl⟩
      | cons c l ihl =>
        intro hl u hu hfu hlu
        have hcm := hl c (by simp)
        have hcf := hc f hf c hcm
        obtain ⟨r1, r2, _⟩ := hu.record hfu hcm
        have hone : ∃ u1, cgCallee co (cgVisit co (n + 1)) f u c = some u1 ∧
            CgInv co u1 (f :: stack) ∧ f ∈ u1.visited ∧
            unvisited co.funcs u1.visited < n + 1 := by
          simp only [cgCallee, hcf, if_true]
          by_cases hcv : c ∈ u.visited
          · rw [if_pos hcv]
            exact ⟨_, rfl, r1, hfu, hlu⟩
          · rw [if_neg hcv]
            obtain ⟨u1, hu1⟩ := ih _ c (f :: stack) r1 hcf hcv hlu
            obtain ⟨i1, i2, _⟩ := cgVisit_inv _ _ u1 c (f :: stack) r1 hcv hu1
            refine ⟨u1, hu1, i1, i2.visited f hfu, ?_⟩
            exact Nat.lt_of_le_of_lt (unvisited_mono co.funcs _ _ i2.visited) hlu
        obtain ⟨u1, e1, k1, k2, k3⟩ := hone
        obtain ⟨u', e'⟩ := ihl (fun c hc => hl c (by simp [hc])) u1 k1 k2 k3
        exact ⟨u', by simp only [List.foldlM_cons, e1]; exact e'⟩
    rw [cgVisit_start hinv hn]
    apply step (bodyOf co f).callees (fun _ h => h) _ (cgStart_inv hinv).1 List.mem_cons_self
    show unvisited co.funcs (f :: t.visited) < n + 1
    omega

/-- The pass terminates without a null summary when direct calls stay inside the code object. -/
theorem cgRun_total (co : CodeObj)
    (hc : ∀ f ∈ co.funcs, ∀ b e g, HasEdge co f b e → DirectCall co e g → g ∈ co.funcs) :
    ∃ S', cgRun co (fun _ => {}) = some S' := by
  have hc' : ∀ f ∈ co.funcs, ∀ c ∈ (bodyOf co f).callees, c ∈ co.funcs := by
    intro f hf c hcm
    obtain ⟨_, _, f3, _⟩ := foldEdges_facts co (edgesOf co f) {}
    rw [← updateCallees_fold] at f3
    obtain ⟨b, e, hm, hd⟩ := by simpa using (f3 c).mp hcm
    exact hc f hf b e c ((mem_edgesOf co f b e).mp hm) hd
  obtain ⟨t, ht, _⟩ := foldlM_total (fun t => CgInv co t []) (cgTop co) co.funcs
    { sums := fun _ => {}, visited := [] }
    (by
      intro f t hf hinv
      unfold cgTop
      by_cases hv : f ∈ t.visited
      · rw [if_pos hv]; exact ⟨t, rfl, hinv⟩
      · rw [if_neg hv]
        have := unvisited_le co.funcs t.visited
        obtain ⟨t', ht'⟩ := cgVisit_total hc' co.funcs.length t f [] hinv hf hv (by omega)
        exact ⟨t', ht', (cgVisit_inv _ t t' f [] hinv hv ht').1⟩)
    ⟨by simp, by simp, by simp⟩
  exact ⟨t.sums, by simp [cgRun, ht]⟩

/-! ## A concrete code object -/

/-- Function 0 (blocks 0, 1) calls function 1 directly, `memcpy` through stub 70 and
something unknown; function 1 (block 2) tail-jumps to block 0. -/
def sampleCode : CodeObj where
  funcs := [0, 1]
  addr f := if f = 0 then 0 else 2
  entry f := if f = 0 then 0 else 2
  blocks f := if f = 0 then [0, 1] else [2]
  exitBlocks f := if f = 0 then [1] else [2]
  targets b := match b with
    | 0 => [{ id := 0, src := 0, trg := 2, type := .call, interproc := true },
            { id := 1, src := 0, trg := 1, type := .callFt }]
    | 1 => [{ id := 2, src := 1, trg := 70, type := .call, interproc := true },
            { id := 3, src := 1, trg := 99, type := .call, sink := true, interproc := true }]
    | _ => [{ id := 4, src := 2, trg := 0, type := .direct, interproc := true }]
  start b := b
  last b := b
  funcsAt b := if b = 2 then [1] else [0]
  linkage a := if a = 70 then some "memcpy".toList else none

example : ∃ S', cgRun sampleCode (fun _ => {}) = some S' ∧ (S' 0).callees = [1] ∧
    (S' 0).hasUnknownCf = true ∧ (S' 0).pltCalls = [(1, "memcpy".toList)] ∧
    (S' 1).callees = [] ∧ (S' 1).callers = [0] :=
  ⟨_, rfl, rfl, rfl, rfl, rfl, rfl⟩

end Verif
