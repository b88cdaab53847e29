import Verif.CallSpec
import Verif.ListLemmas

/-!
# Inter-procedural propagation (`/repo/src/passes.h:379-420`)
-/

namespace Verif

/-- State of the traversal: the summaries and `visited`.  `/repo/src/passes.h:388-401`. -/
structure Trav where
  sums : Sums
  visited : List Func

/-- One iteration of the loop over the callees of `f`, `/repo/src/passes.h:403-410`.
`none`: the callee has no summary (`summaries[f]` is a null pointer). -/
def ipCallee (visit : Trav → Func → Option Trav) (funcs : List Func) (f : Func) (t : Trav)
    (c : Func) : Option Trav :=
  match (if c ∈ t.visited then some t else if c ∈ funcs then visit t c else none) with
  | none => none
  | some t =>
    some { t with sums := t.sums.set f { t.sums f with
      childWrites := (t.sums f).childWrites || (t.sums c).writes
      assumeUnsafe := (t.sums f).assumeUnsafe || (t.sums c).assumeUnsafe } }

/-- The value assigned to `writes`, `/repo/src/passes.h:412-417`. -/
def ipWrites (s : FuncSummary) : Bool :=
  s.selfUnsafeWrites || s.childWrites || s.assumeUnsafe || s.hasUnknownCf ||
    !s.unknownWrites.isEmpty || s.unsafePLTCalls

/-- `VisitFunction`, `/repo/src/passes.h:398-419`; the first argument bounds the depth of
the recursion (`ipRun_total` shows the bound used below is never reached). -/
def ipVisit (funcs : List Func) : Nat → Trav → Func → Option Trav
  | 0, _, _ => none
  | n + 1, t, f =>
    match (t.sums f).callees.foldlM (ipCallee (ipVisit funcs n) funcs f)
        { t with visited := f :: t.visited } with
    | none => none
    | some t => some { t with sums := t.sums.set f { t.sums f with
        writes := ipWrites (t.sums f) } }

/-- One iteration of `RunGlobalAnalysis`, `/repo/src/passes.h:389-394`. -/
def ipTop (funcs : List Func) (t : Trav) (f : Func) : Option Trav :=
  if f ∈ t.visited then some t else ipVisit funcs (funcs.length + 1) t f

/-- `RunGlobalAnalysis`, `/repo/src/passes.h:385-395`. -/
def ipRun (funcs : List Func) (S : Sums) : Option Sums :=
  (funcs.foldlM (ipTop funcs) { sums := S, visited := [] }).map Trav.sums

/-! ## What a visit leaves alone -/

/-- The fields the pass only reads. -/
structure SameFacts (S S' : Sums) : Prop where
  callees : ∀ g, (S' g).callees = (S g).callees
  self : ∀ g, (S' g).selfUnsafeWrites = (S g).selfUnsafeWrites
  unknown : ∀ g, (S' g).hasUnknownCf = (S g).hasUnknownCf
  unknownWrites : ∀ g, (S' g).unknownWrites = (S g).unknownWrites
  plt : ∀ g, (S' g).pltCalls = (S g).pltCalls
  assume_mono : ∀ g, (S g).assumeUnsafe = true → (S' g).assumeUnsafe = true

theorem SameFacts.refl (S : Sums) : SameFacts S S :=
  ⟨fun _ => rfl, fun _ => rfl, fun _ => rfl, fun _ => rfl, fun _ => rfl, fun _ h => h⟩

theorem SameFacts.trans {S S' S'' : Sums} (h : SameFacts S S') (h' : SameFacts S' S'') :
    SameFacts S S'' :=
  ⟨fun g => (h'.callees g).trans (h.callees g), fun g => (h'.self g).trans (h.self g),
   fun g => (h'.unknown g).trans (h.unknown g),
   fun g => (h'.unknownWrites g).trans (h.unknownWrites g),
   fun g => (h'.plt g).trans (h.plt g), fun g a => h'.assume_mono g (h.assume_mono g a)⟩

theorem SameFacts.set_callee (S : Sums) (f c : Func) :
    SameFacts S (S.set f { S f with
      childWrites := (S f).childWrites || (S c).writes
      assumeUnsafe := (S f).assumeUnsafe || (S c).assumeUnsafe }) := by
  constructor <;> intro g <;> by_cases h : g = f
  all_goals first
    | (subst h; simp [Sums.set_same]; try (intro h; simp [h]))
    | (simp [Sums.set_other _ _ h])

theorem SameFacts.set_writes (S : Sums) (f : Func) (w : Bool) :
    SameFacts S (S.set f { S f with writes := w }) := by
  constructor <;> intro g <;> by_cases h : g = f
  all_goals first
    | (subst h; simp [Sums.set_same])
    | (simp [Sums.set_other _ _ h])

/-- What one visit of `f` (or one callee step inside it) may do. -/
structure Frame (t t' : Trav) (f : Func) : Prop where
  facts : SameFacts t.sums t'.sums
  mono : ∀ g ∈ t.visited, g ∈ t'.visited
  keep : ∀ g ∈ t.visited, g ≠ f → t'.sums g = t.sums g

theorem Frame.refl (t : Trav) (f : Func) : Frame t t f := ⟨.refl _, fun _ h => h, fun _ _ _ => rfl⟩

theorem Frame.trans {t t' t'' : Trav} {f : Func} (h : Frame t t' f) (h' : Frame t' t'' f) :
    Frame t t'' f :=
  ⟨h.facts.trans h'.facts, fun g hg => h'.mono g (h.mono g hg),
   fun g hg hn => (h'.keep g (h.mono g hg) hn).trans (h.keep g hg hn)⟩

/-- A callee step is either nothing or a visit, followed by an update of `f`. -/
theorem ipCallee_cases {visit : Trav → Func → Option Trav} {funcs : List Func} {f c : Func}
    {t t' : Trav} (h : ipCallee visit funcs f t c = some t') :
    ∃ t1, ((c ∈ t.visited ∧ t1 = t) ∨ (c ∉ t.visited ∧ c ∈ funcs ∧ visit t c = some t1)) ∧
      t' = { t1 with sums := t1.sums.set f { t1.sums f with
        childWrites := (t1.sums f).childWrites || (t1.sums c).writes
        assumeUnsafe := (t1.sums f).assumeUnsafe || (t1.sums c).assumeUnsafe } } := by
  simp only [ipCallee] at h
  by_cases hv : c ∈ t.visited
  · rw [if_pos hv] at h
    cases h
    exact ⟨t, .inl ⟨hv, rfl⟩, rfl⟩
  · rw [if_neg hv] at h
    by_cases hf : c ∈ funcs
    · rw [if_pos hf] at h
      cases hvis : visit t c with
      | none => rw [hvis] at h; cases h
      | some t1 =>
        rw [hvis] at h
        cases h
        exact ⟨t1, .inr ⟨hv, hf, rfl⟩, rfl⟩
    · rw [if_neg hf] at h
      cases h

theorem ipVisit_cases {funcs : List Func} {n : Nat} {t t' : Trav} {f : Func}
    (h : ipVisit funcs (n + 1) t f = some t') :
    ∃ t1, (t.sums f).callees.foldlM (ipCallee (ipVisit funcs n) funcs f)
        { t with visited := f :: t.visited } = some t1 ∧
      t' = { t1 with sums := t1.sums.set f { t1.sums f with writes := ipWrites (t1.sums f) } } := by
  simp only [ipVisit] at h
  split at h
  · cases h
  · cases h
    exact ⟨_, by assumption, rfl⟩

theorem ipCallee_frame {visit : Trav → Func → Option Trav} {funcs : List Func} {f c : Func}
    {t t' : Trav} (hv : ∀ t t' c, c ∉ t.visited → visit t c = some t' → Frame t t' c)
    (h : ipCallee visit funcs f t c = some t') : Frame t t' f := by
  obtain ⟨t1, h1, rfl⟩ := ipCallee_cases h
  have hset : Frame t1 { t1 with sums := t1.sums.set f { t1.sums f with
        childWrites := (t1.sums f).childWrites || (t1.sums c).writes
        assumeUnsafe := (t1.sums f).assumeUnsafe || (t1.sums c).assumeUnsafe } } f :=
    ⟨.set_callee _ _ _, fun _ h => h, fun g _ hn => Sums.set_other _ _ hn⟩
  rcases h1 with ⟨_, rfl⟩ | ⟨hn, _, hvis⟩
  · exact hset
  · have h2 := hv t t1 c hn hvis
    refine Frame.trans ⟨h2.facts, h2.mono, fun g hg _ => h2.keep g hg ?_⟩ hset
    intro e; subst e; exact hn hg

/-- A visit marks its function, keeps the facts and only touches functions not visited before. -/
theorem ipVisit_frame {funcs : List Func} : ∀ (n : Nat) (t t' : Trav) (f : Func),
    ipVisit funcs n t f = some t' → Frame t t' f ∧ f ∈ t'.visited := by
  intro n
  induction n with
  | zero => intro t t' f h; cases h
  | succ n ih =>
    intro t t' f h
    obtain ⟨t1, h1, rfl⟩ := ipVisit_cases h
    have hfold : Frame { t with visited := f :: t.visited } t1 f :=
      foldlM_inv (fun u => Frame { t with visited := f :: t.visited } u f) _ _ _ _
        (fun c u u' _ hu hstep =>
          hu.trans (ipCallee_frame (fun a a' c _ hv => (ih a a' c hv).1) hstep))
        (Frame.refl _ _) h1
    refine ⟨⟨hfold.facts.trans (.set_writes _ _ _), ?_, ?_⟩, ?_⟩
    · intro g hg; exact hfold.mono g (by simp [hg])
    · intro g hg hn
      show t1.sums.set f _ g = _
      rw [Sums.set_other _ _ hn]
      exact hfold.keep g (by simp [hg]) hn
    · exact hfold.mono f (by simp)

/-! ## The recursion bound is large enough -/

/-- Number of functions not visited yet. -/
def unvisited (funcs : List Func) (V : List Func) : Nat := (funcs.filter (fun f => f ∉ V)).length

theorem unvisited_mono (funcs V V' : List Func) (h : ∀ g ∈ V, g ∈ V') :
    unvisited funcs V' ≤ unvisited funcs V := by
  unfold unvisited
  rw [← List.countP_eq_length_filter, ← List.countP_eq_length_filter]
  apply List.countP_mono_left
  intro x _ hx
  simp only [decide_eq_true_eq] at hx ⊢
  exact fun hv => hx (h x hv)

theorem unvisited_cons (funcs V : List Func) (f : Func) (hf : f ∈ funcs) (hn : f ∉ V) :
    unvisited funcs (f :: V) < unvisited funcs V := by
  unfold unvisited
  induction funcs with
  | nil => cases hf
  | cons g l ih =>
    by_cases hgf : g = f
    · subst hgf
      have h1 : ((g :: l).filter (fun x => x ∉ V)).length =
          (l.filter (fun x => x ∉ V)).length + 1 := by
        rw [List.filter_cons_of_pos (by simpa using hn)]; rfl
      have h2 : ((g :: l).filter (fun x => x ∉ g :: V)).length =
          (l.filter (fun x => x ∉ g :: V)).length := by
        rw [List.filter_cons_of_neg (by simp)]
      have h3 := unvisited_mono l V (g :: V) (by intro x hx; simp [hx])
      unfold unvisited at h3
      omega
    · have hl : f ∈ l := by
        rcases List.mem_cons.mp hf with h | h
        · exact absurd h.symm hgf
        · exact h
      have := ih hl
      by_cases hgV : g ∈ V
      · rw [List.filter_cons_of_neg (by simp [hgV]), List.filter_cons_of_neg (by simp [hgV])]
        exact this
      · rw [List.filter_cons_of_pos (by simp [hgV, hgf]), List.filter_cons_of_pos (by simp [hgV])]
        simpa using this

theorem unvisited_le (funcs V : List Func) : unvisited funcs V ≤ funcs.length :=
  List.length_filter_le _ _

theorem ipVisit_total {funcs : List Func} {S0 : Sums} (hc : Closed S0 funcs) :
    ∀ (n : Nat) (t : Trav) (f : Func), SameFacts S0 t.sums → f ∈ funcs → f ∉ t.visited →
      unvisited funcs t.visited < n + 1 → ∃ t', ipVisit funcs (n + 1) t f = some t' := by
  intro n
  induction n with
  | zero =>
    intro t f _ hf hn hlt
    have := unvisited_cons funcs t.visited f hf hn
    omega
  | succ n ih =>
    intro t f hs hf hn hlt
    have hlt' := unvisited_cons funcs t.visited f hf hn
    obtain ⟨t1, h1, _⟩ := foldlM_total
      (fun u => Frame { t with visited := f :: t.visited } u f)
      (ipCallee (ipVisit funcs (n + 1)) funcs f) (t.sums f).callees
      { t with visited := f :: t.visited }
      (by
        intro c u hcm hu
        have hcf : c ∈ funcs := hc f hf c (by rw [← hs.callees]; exact hcm)
        have hstep : ∃ u', ipCallee (ipVisit funcs (n + 1)) funcs f u c = some u' := by
          unfold ipCallee
          by_cases hcv : c ∈ u.visited
          · rw [if_pos hcv]; exact ⟨_, rfl⟩
          · rw [if_neg hcv, if_pos hcf]
            have hm := unvisited_mono funcs _ _ hu.mono
            obtain ⟨u', hu'⟩ := ih u c (hs.trans hu.facts) hcf hcv (by
              simp only at hm; omega)
            rw [hu']
            exact ⟨_, rfl⟩
        obtain ⟨u', hu'⟩ := hstep
        exact ⟨u', hu', hu.trans (ipCallee_frame
          (fun a a' c _ hv => (ipVisit_frame _ a a' c hv).1) hu')⟩)
      (Frame.refl _ _)
    rw [ipVisit, h1]
    exact ⟨_, rfl⟩

/-- The pass terminates without dereferencing a null summary, whatever the call graph. -/
theorem ipRun_total (funcs : List Func) (S : Sums) (hc : Closed S funcs) :
    ∃ S', ipRun funcs S = some S' := by
  obtain ⟨t, h, _⟩ := foldlM_total (fun t : Trav => SameFacts S t.sums) (ipTop funcs) funcs
    { sums := S, visited := [] }
    (by
      intro f t hf hs
      unfold ipTop
      by_cases hv : f ∈ t.visited
      · rw [if_pos hv]; exact ⟨t, rfl, hs⟩
      · rw [if_neg hv]
        have := unvisited_le funcs t.visited
        obtain ⟨t', ht'⟩ := ipVisit_total hc funcs.length t f hs hf hv (by omega)
        exact ⟨t', ht', hs.trans (ipVisit_frame _ t t' f ht').1.facts⟩)
    (SameFacts.refl S)
  exact ⟨t.sums, by simp [ipRun, h]⟩

end Verif
