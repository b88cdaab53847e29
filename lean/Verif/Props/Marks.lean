import Verif.Props.Pipeline
import Verif.Props.Exact

/-!
# C96: what the marks of a summary say
-/

namespace Verif

/-! ## The inter-procedural pass -/

/-- The marks of `g` are those of its callees and its own. -/
structure MarksOk (S0 S : Sums) (g : Func) : Prop where
  child : (S g).childWrites = true ↔
    (S0 g).childWrites = true ∨ ∃ c ∈ (S0 g).callees, (S c).writes = true
  assume : (S g).assumeUnsafe = true ↔
    (S0 g).assumeUnsafe = true ∨ ∃ c ∈ (S0 g).callees, (S c).assumeUnsafe = true

/-- The marks of finished functions are final; `stack` holds those still being visited. -/
structure MarksInv (S0 : Sums) (t : Trav) (stack : List Func) : Prop where
  facts : SameFacts S0 t.sums
  untouched : ∀ g, g ∉ t.visited → t.sums g = S0 g
  writes : ∀ g ∈ t.visited, g ∉ stack → (t.sums g).writes = ipWrites (t.sums g)
  marks : ∀ g ∈ t.visited, g ∉ stack → NoRecursion S0 g →
    MarksOk S0 t.sums g ∧ ∀ c ∈ (S0 g).callees, c ∈ t.visited ∧ c ∉ stack

theorem ipVisit_marks {funcs : List Func} {S0 : Sums} :
    ∀ (n : Nat) (t t' : Trav) (f : Func) (stack : List Func),
      f ∉ t.visited → (∀ s ∈ stack, Reach S0 s f) → (∀ s ∈ stack, s ∈ t.visited) →
      MarksInv S0 t stack → ipVisit funcs n t f = some t' → MarksInv S0 t' stack := by
  intro n
  induction n with
  | zero => intro t t' f stack _ _ _ _ h; cases h
  | succ n ih =>
    intro t t' f stack hfv hst hsv hinv h
    obtain ⟨t1, h1, rfl⟩ := ipVisit_cases h
    have hfstack : f ∉ stack := fun hm => hfv (hsv f hm)
    have key := foldlM_prefix
      (fun done u => f ∈ u.visited ∧ (∀ s ∈ stack, s ∈ u.visited) ∧ MarksInv S0 u (f :: stack) ∧
        (NoRecursion S0 f →
          ((u.sums f).childWrites = true ↔
            (S0 f).childWrites = true ∨ ∃ c ∈ done, (u.sums c).writes = true) ∧
          ((u.sums f).assumeUnsafe = true ↔
            (S0 f).assumeUnsafe = true ∨ ∃ c ∈ done, (u.sums c).assumeUnsafe = true) ∧
          ∀ c ∈ done, c ∈ u.visited ∧ c ∉ f :: stack))
      (ipCallee (ipVisit funcs n) funcs f) (t.sums f).callees []
      { t with visited := f :: t.visited } t1
      (by
        rintro done c u u' hcm ⟨hfu, hsu, hu, hdone⟩ hstep
        rw [hinv.facts.callees] at hcm
        have hcst : NoRecursion S0 f → c ∉ f :: stack := by
          intro hnr hmem
          rcases List.mem_cons.mp hmem with e | hmem
          · subst e; exact hnr c c .refl hcm .refl
          · exact hnr f c .refl hcm (hst c hmem)
        obtain ⟨u1, hu1, rfl⟩ := ipCallee_cases hstep
        have hmain : f ∈ u1.visited ∧ (∀ s ∈ stack, s ∈ u1.visited) ∧
            MarksInv S0 u1 (f :: stack) ∧ c ∈ u1.visited ∧ u1.sums f = u.sums f ∧
            (∀ g ∈ u.visited, g ∈ u1.visited ∧ (c ∉ u.visited ∨ u1.sums g = u.sums g)) ∧
            (∀ g ∈ u.visited, g ≠ c → u1.sums g = u.sums g) ∧
            (c ∈ u.visited → u1 = u) := by
          rcases hu1 with ⟨hcv, rfl⟩ | ⟨hcv, _, hvis⟩
          · exact ⟨hfu, hsu, hu, hcv, rfl, fun g hg => ⟨hg, .inr rfl⟩, fun _ _ _ => rfl,
              fun _ => rfl⟩
          · have hfr := ipVisit_frame n u u1 c hvis
            refine ⟨hfr.1.mono f hfu, fun s hs' => hfr.1.mono s (hsu s hs'), ?_, hfr.2, ?_,
              fun g hg => ⟨hfr.1.mono g hg, .inl hcv⟩, fun g hg hn => hfr.1.keep g hg hn,
              fun h => absurd h hcv⟩
            · apply ih u u1 c (f :: stack) hcv _ _ hu hvis
              · intro s hs'
                rcases List.mem_cons.mp hs' with e | hs'
                · subst e; exact .step hcm .refl
                · exact (hst s hs').call hcm
              · intro s hs'
                rcases List.mem_cons.mp hs' with e | hs'
                · subst e; exact hfu
                · exact hsu s hs'
            · exact hfr.1.keep f hfu (by intro e; subst e; exact hcv hfu)
        obtain ⟨m2, m3, m4, m5, m6, m7, m8, m9⟩ := hmain
        have hoth : ∀ g, g ≠ f → (u1.sums.set f { u1.sums f with
            childWrites := (u1.sums f).childWrites || (u1.sums c).writes
            assumeUnsafe := (u1.sums f).assumeUnsafe || (u1.sums c).assumeUnsafe }) g = u1.sums g :=
          fun g hg => Sums.set_other _ _ hg
        refine ⟨m2, m3, ⟨m4.facts.trans (.set_callee _ _ _), ?_, ?_, ?_⟩, ?_⟩
        · intro g hg
          show (u1.sums.set f _) g = _
          rw [hoth g (by intro e; subst e; exact hg m2)]
          exact m4.untouched g hg
        · intro g hg hgs
          show ((u1.sums.set f _) g).writes = ipWrites ((u1.sums.set f _) g)
          rw [hoth g (by intro e; subst e; exact hgs (by simp))]
          exact m4.writes g hg hgs
        · intro g hg hgs hnr
          obtain ⟨hm, hc'⟩ := m4.marks g hg hgs hnr
          have hgf : g ≠ f := by intro e; subst e; exact hgs (by simp)
          have hcf : ∀ d ∈ (S0 g).callees, d ≠ f := fun d hd e => by
            subst e; exact (hc' d hd).2 (by simp)
          refine ⟨⟨?_, ?_⟩, hc'⟩
          · show ((u1.sums.set f _) g).childWrites = true ↔ _ ∨ ∃ d ∈ _, ((u1.sums.set f _) d).writes = true
            rw [hoth g hgf, hm.child]
            refine or_congr Iff.rfl ⟨?_, ?_⟩ <;> rintro ⟨d, hd, hw⟩ <;> refine ⟨d, hd, ?_⟩
            · rw [hoth d (hcf d hd)]; exact hw
            · rw [hoth d (hcf d hd)] at hw; exact hw
          · show ((u1.sums.set f _) g).assumeUnsafe = true ↔
              _ ∨ ∃ d ∈ _, ((u1.sums.set f _) d).assumeUnsafe = true
            rw [hoth g hgf, hm.assume]
            refine or_congr Iff.rfl ⟨?_, ?_⟩ <;> rintro ⟨d, hd, hw⟩ <;> refine ⟨d, hd, ?_⟩
            · rw [hoth d (hcf d hd)]; exact hw
            · rw [hoth d (hcf d hd)] at hw; exact hw
        · intro hnr
          obtain ⟨d1, d2, d3⟩ := hdone hnr
          have hcn := hcst hnr
          have hcf : c ≠ f := by intro e; subst e; exact hcn (by simp)
          have hsame : ∀ d ∈ done, u1.sums d = u.sums d := by
            intro d hd
            by_cases hcv : c ∈ u.visited
            · rw [m9 hcv]
            · exact m8 d (d3 d hd).1 (by intro e; subst e; exact hcv (d3 d hd).1)
          have hdf : ∀ d ∈ done, d ≠ f := fun d hd e => by
            subst e; exact (d3 d hd).2 (by simp)
          refine ⟨?_, ?_, ?_⟩
          · show ((u1.sums.set f _) f).childWrites = true ↔
              _ ∨ ∃ d ∈ _, ((u1.sums.set f _) d).writes = true
            rw [Sums.set_same]
            simp only [Bool.or_eq_true, m6, d1]
            constructor
            · rintro ((h | ⟨d, hd, hw⟩) | h)
              · exact .inl h
              · exact .inr ⟨d, by simp [hd], by rw [Sums.set_other _ _ (hdf d hd), hsame d hd]; exact hw⟩
              · exact .inr ⟨c, by simp, by rw [Sums.set_other _ _ hcf]; exact h⟩
            · rintro (h | ⟨d, hd, hw⟩)
              · exact .inl (.inl h)
              · rcases List.mem_append.mp hd with hd | hd
                · rw [Sums.set_other _ _ (hdf d hd), hsame d hd] at hw; exact .inl (.inr ⟨d, hd, hw⟩)
                · have e : d = c := by simpa using hd
                  subst e
                  rw [Sums.set_other _ _ hcf] at hw
                  exact .inr hw
          · show ((u1.sums.set f _) f).assumeUnsafe = true ↔
              _ ∨ ∃ d ∈ _, ((u1.sums.set f _) d).assumeUnsafe = true
            rw [Sums.set_same]
            simp only [Bool.or_eq_true, m6, d2]
            constructor
            · rintro ((h | ⟨d, hd, hw⟩) | h)
              · exact .inl h
              · exact .inr ⟨d, by simp [hd], by rw [Sums.set_other _ _ (hdf d hd), hsame d hd]; exact hw⟩
              · exact .inr ⟨c, by simp, by rw [Sums.set_other _ _ hcf]; exact h⟩
            · rintro (h | ⟨d, hd, hw⟩)
              · exact .inl (.inl h)
              · rcases List.mem_append.mp hd with hd | hd
                · rw [Sums.set_other _ _ (hdf d hd), hsame d hd] at hw; exact .inl (.inr ⟨d, hd, hw⟩)
                · have e : d = c := by simpa using hd
                  subst e
                  rw [Sums.set_other _ _ hcf] at hw
                  exact .inr hw
          · intro d hd
            rcases List.mem_append.mp hd with hd | hd
            · exact ⟨(m7 d (d3 d hd).1).1, (d3 d hd).2⟩
            · have e : d = c := by simpa using hd
              subst e
              exact ⟨m5, hcn⟩)
      ⟨by simp, fun s hs' => by simp [hsv s hs'], ⟨hinv.facts, fun g hg => hinv.untouched g (by
          intro hm; exact hg (List.mem_cons_of_mem _ hm)), by
          intro g hg hgs
          rcases List.mem_cons.mp hg with e | hg
          · subst e; exact absurd List.mem_cons_self hgs
          · exact hinv.writes g hg (fun hm => hgs (List.mem_cons_of_mem _ hm)), by
          intro g hg hgs hnr
          rcases List.mem_cons.mp hg with e | hg
          · subst e; exact absurd List.mem_cons_self hgs
          · obtain ⟨hm, hc⟩ := hinv.marks g hg (fun hm => hgs (List.mem_cons_of_mem _ hm)) hnr
            refine ⟨hm, fun c hcm => ⟨List.mem_cons_of_mem _ (hc c hcm).1, ?_⟩⟩
            intro hmem
            rcases List.mem_cons.mp hmem with e | hmem
            · subst e; exact hfv (hc c hcm).1
            · exact (hc c hcm).2 hmem⟩,
        fun _ => ⟨by simp [hinv.untouched f hfv], by simp [hinv.untouched f hfv], by simp⟩⟩ h1
    obtain ⟨k2, k3, k4, k5⟩ := key
    rw [List.nil_append, hinv.facts.callees] at k5
    have hoth : ∀ g, g ≠ f → (t1.sums.set f { t1.sums f with writes := ipWrites (t1.sums f) }) g =
        t1.sums g := fun g hg => Sums.set_other _ _ hg
    have hst' : ∀ g, g ∉ stack → g ≠ f → g ∉ f :: stack := fun g h1 h2 hm => by
      rcases List.mem_cons.mp hm with e | hm
      · exact h2 e
      · exact h1 hm
    refine ⟨k4.facts.trans (.set_writes _ _ _), ?_, ?_, ?_⟩
    · intro g hg
      show (t1.sums.set f _) g = _
      rw [hoth g (by intro e; subst e; exact hg k2)]
      exact k4.untouched g hg
    · intro g hg hgs
      show ((t1.sums.set f _) g).writes = ipWrites ((t1.sums.set f _) g)
      by_cases hgf : g = f
      · subst hgf; rw [Sums.set_same]; rfl
      · rw [hoth g hgf]; exact k4.writes g hg (hst' g hgs hgf)
    · intro g hg hgs hnr
      by_cases hgf : g = f
      · subst hgf
        obtain ⟨q1, q2, q3⟩ := k5 hnr
        have hcf : ∀ d ∈ (S0 g).callees, d ≠ g := fun d hd e => by
          subst e; exact (q3 d hd).2 (by simp)
        refine ⟨⟨?_, ?_⟩, fun c hc => ⟨(q3 c hc).1, fun hm => (q3 c hc).2 (by simp [hm])⟩⟩
        · show ((t1.sums.set g _) g).childWrites = true ↔
            _ ∨ ∃ d ∈ _, ((t1.sums.set g _) d).writes = true
          rw [Sums.set_same]
          refine q1.trans (or_congr Iff.rfl ⟨?_, ?_⟩) <;> rintro ⟨d, hd, hw⟩ <;> refine ⟨d, hd, ?_⟩
          · rw [hoth d (hcf d hd)]; exact hw
          · rw [hoth d (hcf d hd)] at hw; exact hw
        · show ((t1.sums.set g _) g).assumeUnsafe = true ↔
            _ ∨ ∃ d ∈ _, ((t1.sums.set g _) d).assumeUnsafe = true
          rw [Sums.set_same]
          refine q2.trans (or_congr Iff.rfl ⟨?_, ?_⟩) <;> rintro ⟨d, hd, hw⟩ <;> refine ⟨d, hd, ?_⟩
          · rw [hoth d (hcf d hd)]; exact hw
          · rw [hoth d (hcf d hd)] at hw; exact hw
      · obtain ⟨hm, hc'⟩ := k4.marks g hg (hst' g hgs hgf) hnr
        have hcf : ∀ d ∈ (S0 g).callees, d ≠ f := fun d hd e => by
          subst e; exact (hc' d hd).2 (by simp)
        refine ⟨⟨?_, ?_⟩, fun c hc => ⟨(hc' c hc).1, fun hm => (hc' c hc).2 (by simp [hm])⟩⟩
        · show ((t1.sums.set f _) g).childWrites = true ↔
            _ ∨ ∃ d ∈ _, ((t1.sums.set f _) d).writes = true
          rw [hoth g hgf, hm.child]
          refine or_congr Iff.rfl ⟨?_, ?_⟩ <;> rintro ⟨d, hd, hw⟩ <;> refine ⟨d, hd, ?_⟩
          · rw [hoth d (hcf d hd)]; exact hw
          · rw [hoth d (hcf d hd)] at hw; exact hw
        · show ((t1.sums.set f _) g).assumeUnsafe = true ↔
            _ ∨ ∃ d ∈ _, ((t1.sums.set f _) d).assumeUnsafe = true
          rw [hoth g hgf, hm.assume]
          refine or_congr Iff.rfl ⟨?_, ?_⟩ <;> rintro ⟨d, hd, hw⟩ <;> refine ⟨d, hd, ?_⟩
          · rw [hoth d (hcf d hd)]; exact hw
          · rw [hoth d (hcf d hd)] at hw; exact hw

theorem ipRun_marks {funcs : List Func} {S S' : Sums} (h : ipRun funcs S = some S') :
    (∀ f ∈ funcs, (S' f).writes = ipWrites (S' f)) ∧
    ∀ f ∈ funcs, NoRecursion S f → MarksOk S S' f := by
  unfold ipRun at h
  cases hfold : funcs.foldlM (ipTop funcs) { sums := S, visited := [] } with
  | none => rw [hfold] at h; cases h
  | some t =>
    rw [hfold] at h
    cases h
    have := foldlM_inv (fun u : Trav => MarksInv S u []) (ipTop funcs) funcs _ t
      (by
        intro g u u' _ hu hstep
        unfold ipTop at hstep
        split at hstep
        · cases hstep; exact hu
        · rename_i hv
          exact ipVisit_marks _ u u' g [] hv (by simp) (by simp) hu hstep)
      ⟨.refl S, fun _ _ => rfl, by simp, by simp⟩ hfold
    exact ⟨fun f hf => this.writes f (ipRun_visited hfold f hf) (by simp),
      fun f hf hnr => (this.marks f (ipRun_visited hfold f hf) (by simp) hnr).1⟩

/-- The mark of `assume_unsafe` comes from a function that can be reached. -/
theorem ipVisit_assumed {funcs : List Func} {S0 : Sums} :
    ∀ (n : Nat) (t t' : Trav) (f : Func), SameFacts S0 t.sums →
      (∀ g, (t.sums g).assumeUnsafe = true → ∃ k, Reach S0 g k ∧ (S0 k).assumeUnsafe = true) →
      ipVisit funcs n t f = some t' →
      SameFacts S0 t'.sums ∧
      ∀ g, (t'.sums g).assumeUnsafe = true → ∃ k, Reach S0 g k ∧ (S0 k).assumeUnsafe = true := by
  intro n
  induction n with
  | zero => intro t t' f _ _ h; cases h
  | succ n ih =>
    intro t t' f hs ha h
    obtain ⟨t1, h1, rfl⟩ := ipVisit_cases h
    have hj := foldlM_inv (fun u : Trav => SameFacts S0 u.sums ∧
        ∀ g, (u.sums g).assumeUnsafe = true → ∃ k, Reach S0 g k ∧ (S0 k).assumeUnsafe = true)
      (ipCallee (ipVisit funcs n) funcs f) (t.sums f).callees
      { t with visited := f :: t.visited } t1
      (by
        rintro c u u' hcm ⟨hu, hua⟩ hstep
        rw [hs.callees] at hcm
        obtain ⟨u1, hu1, rfl⟩ := ipCallee_cases hstep
        have h2 : SameFacts S0 u1.sums ∧ ∀ g, (u1.sums g).assumeUnsafe = true →
            ∃ k, Reach S0 g k ∧ (S0 k).assumeUnsafe = true := by
          rcases hu1 with ⟨_, rfl⟩ | ⟨_, _, hvis⟩
          · exact ⟨hu, hua⟩
          · exact ih u u1 c hu hua hvis
        refine ⟨h2.1.trans (.set_callee _ _ _), fun g hg => ?_⟩
        have hg' : ((u1.sums.set f { u1.sums f with
            childWrites := (u1.sums f).childWrites || (u1.sums c).writes
            assumeUnsafe := (u1.sums f).assumeUnsafe || (u1.sums c).assumeUnsafe }) g).assumeUnsafe
              = true := hg
        by_cases hgf : g = f
        · subst hgf
          rw [Sums.set_same] at hg'
          rcases Bool.or_eq_true_iff.mp hg' with hg' | hg'
          · exact h2.2 g hg'
          · obtain ⟨k, hk, hk'⟩ := h2.2 c hg'
            exact ⟨k, .step hcm hk, hk'⟩
        · rw [Sums.set_other _ _ hgf] at hg'
          exact h2.2 g hg')
      ⟨hs, ha⟩ h1
    refine ⟨hj.1.trans (.set_writes _ _ _), fun g hg => ?_⟩
    have hg' : ((t1.sums.set f { t1.sums f with writes := ipWrites (t1.sums f) }) g).assumeUnsafe
      = true := hg
    by_cases hgf : g = f
    · subst hgf; rw [Sums.set_same] at hg'; exact hj.2 g hg'
    · rw [Sums.set_other _ _ hgf] at hg'; exact hj.2 g hg'

theorem ipRun_assumed {funcs : List Func} {S S' : Sums} (h : ipRun funcs S = some S') (g : Func)
    (hg : (S' g).assumeUnsafe = true) : ∃ k, Reach S g k ∧ (S k).assumeUnsafe = true := by
  unfold ipRun at h
  cases hfold : funcs.foldlM (ipTop funcs) { sums := S, visited := [] } with
  | none => rw [hfold] at h; cases h
  | some t =>
    rw [hfold] at h
    cases h
    have := foldlM_inv (fun u : Trav => SameFacts S u.sums ∧
        ∀ g, (u.sums g).assumeUnsafe = true → ∃ k, Reach S g k ∧ (S k).assumeUnsafe = true)
      (ipTop funcs) funcs _ t
      (by
        rintro c u u' _ ⟨hu, hua⟩ hstep
        unfold ipTop at hstep
        split at hstep
        · cases hstep; exact ⟨hu, hua⟩
        · exact ipVisit_assumed _ u u' c hu hua hstep)
      ⟨.refl S, fun g hg => ⟨g, .refl, hg⟩⟩ hfold
    exact this.2 g hg

/-! ## The pipeline -/

/-- The summaries after the pipeline in terms of those before and after the inter-procedural pass. -/
structure MarkedFrom (co : CodeObj) (info : StackInfo) (T S3 S4 : Sums) : Prop where
  run : ipRun co.funcs S3 = some S4
  fresh : Fresh S3
  known : Closed S3 co.funcs
  safe : ∀ g, (T g).safe = !(S4 g).writes
  child : ∀ g, (T g).childWrites = (S4 g).childWrites
  assume : ∀ g, (T g).assumeUnsafe = (S4 g).assumeUnsafe
  callees : ∀ g, (T g).callees = (S3 g).callees
  self : ∀ g, (T g).selfUnsafeWrites = (S3 g).selfUnsafeWrites
  unknown : ∀ g, (T g).hasUnknownCf = (S3 g).hasUnknownCf
  unknownWrites : ∀ g, (T g).unknownWrites = (S3 g).unknownWrites
  plt : ∀ g, (T g).pltCalls = (S3 g).pltCalls
  large : ∀ g, (S3 g).assumeUnsafe = true ↔ g ∈ co.funcs ∧ Oversized co g
  above : ∀ g ∈ co.funcs, (S3 g).selfUnsafeWrites = true ↔
    ¬ Oversized co g ∧ ∃ b ∈ co.blocks g, WritesAbove info b
  listed : ∀ g ∈ co.funcs, ∀ b a, Listed (S3 g).unknownWrites b a ↔
    ¬ Oversized co g ∧ b ∈ co.blocks g ∧ WritesUnknown info b a

theorem analyse_marked {co : CodeObj} {info : StackInfo} {R : Func → RegFacts} {T : Sums}
    (hnd : co.funcs.Nodup) (h : analyse co info R = some T) : ∃ S3 S4, MarkedFrom co info T S3 S4 := by
  obtain ⟨S1, S4, S5, free, h1, h4, h5, rfl⟩ := analyse_steps h
  have tail : ∀ {β : Type} (π : FuncSummary → β), (∀ s, π (setSafe s) = π s) →
      (∀ f s, π (setRegs R f s) = π s) → (∀ f s, π (countSafe co f s) = π s) →
      (∀ s, π { s with unsafeBlocks := [] } = π s) → (∀ s, π (exErase s) = π s) → ∀ g,
      π (setSafe (runLocal co.funcs (setRegs R) (runLocal co.funcs (countSafe co) (ucRun co S5)) g)) =
        π (S4 g) := by
    intro β π p1 p2 p3 p4 p5 g
    have u : { ucRun co S5 g with unsafeBlocks := [] } = { S5 g with unsafeBlocks := [] } :=
      runLocal_same _ (fun s => { s with unsafeBlocks := [] }) (ucFunc_erase co _) S5 g
    rw [p1, runLocal_same _ π p2, runLocal_same _ π p3, ← p4, u, p4, ← p5, exRun_erase h5 g, p5]
  generalize hS3 : runLocal co.funcs (stackHeight co info) (runLocal co.funcs (largeFilter co) S1) = S3
    at h4
  generalize hS2 : runLocal co.funcs (largeFilter co) S1 = S2 at hS3
  have w : ∀ g, ipErase (S4 g) = ipErase (S3 g) := fun g => ipRun_erase h4 g
  have x : ∀ g, shErase (S3 g) = shErase (S2 g) := fun g => by
    rw [← hS3]; exact runLocal_same _ shErase (stackHeight_erase co info) S2 g
  have y : ∀ g, { S2 g with assumeUnsafe := false } = { S1 g with assumeUnsafe := false } := fun g => by
    rw [← hS2]
    exact runLocal_same _ (fun s => { s with assumeUnsafe := false }) (largeFilter_erase co) S1 g
  have e1 : ∀ g, cgErase (S1 g) = cgErase {} := fun g => cgRun_erase h1 g
  have a3 : ∀ g, (S3 g).assumeUnsafe = (S2 g).assumeUnsafe := fun g => congrArg (·.assumeUnsafe) (x g)
  have large : ∀ g, (S2 g).assumeUnsafe = true ↔ g ∈ co.funcs ∧ Oversized co g := by
    intro g
    have a1 : (S1 g).assumeUnsafe = false := congrArg (·.assumeUnsafe) (e1 g)
    by_cases hg : g ∈ co.funcs
    · rw [← hS2, runLocal_apply _ hnd _ _ _ hg, (C21_exact co g (S1 g)).1]
      simp [a1, hg]
    · rw [← hS2, runLocal_not_mem _ _ _ _ hg]
      simp [a1, hg]
  have at3 : ∀ f ∈ co.funcs, S3 f = stackHeight co info f (S2 f) := fun f hf => by
    rw [← hS3]; exact runLocal_apply _ hnd _ _ _ hf
  have s2 : ∀ g, (S2 g).selfUnsafeWrites = false := fun g =>
    (congrArg (·.selfUnsafeWrites) (y g)).trans (congrArg (·.selfUnsafeWrites) (e1 g))
  have k2 : ∀ g, (S2 g).unknownWrites = [] := fun g =>
    (congrArg (·.unknownWrites) (y g)).trans (congrArg (·.unknownWrites) (e1 g))
  refine ⟨S3, S4, h4, ?_, ?_, ?_, ?_, ?_, ?_, ?_, ?_, ?_, ?_, ?_, ?_, ?_⟩
  · exact fun g => ⟨((congrArg (·.writes) (x g)).trans (congrArg (·.writes) (y g))).trans
        (congrArg (·.writes) (e1 g)),
      ((congrArg (·.childWrites) (x g)).trans (congrArg (·.childWrites) (y g))).trans
        (congrArg (·.childWrites) (e1 g))⟩
  · intro f hf c hc
    have c3 : (S3 f).callees = (S1 f).callees :=
      (congrArg (·.callees) (x f)).trans (congrArg (·.callees) (y f))
    rw [c3] at hc
    exact cgRun_known h1 f hf c hc
  · intro g
    have := tail (·.writes) (fun _ => rfl) (fun _ _ => rfl) (fun _ _ => rfl) (fun _ => rfl)
      (fun _ => rfl) g
    exact congrArg (!·) this
  · exact tail (·.childWrites) (fun _ => rfl) (fun _ _ => rfl) (fun _ _ => rfl) (fun _ => rfl)
      (fun _ => rfl)
  · exact tail (·.assumeUnsafe) (fun _ => rfl) (fun _ _ => rfl) (fun _ _ => rfl) (fun _ => rfl)
      (fun _ => rfl)
  · exact fun g => (tail (·.callees) (fun _ => rfl) (fun _ _ => rfl) (fun _ _ => rfl) (fun _ => rfl)
      (fun _ => rfl) g).trans (congrArg (·.callees) (w g))
  · exact fun g => (tail (·.selfUnsafeWrites) (fun _ => rfl) (fun _ _ => rfl) (fun _ _ => rfl)
      (fun _ => rfl) (fun _ => rfl) g).trans (congrArg (·.selfUnsafeWrites) (w g))
  · exact fun g => (tail (·.hasUnknownCf) (fun _ => rfl) (fun _ _ => rfl) (fun _ _ => rfl) (fun _ => rfl)
      (fun _ => rfl) g).trans (congrArg (·.hasUnknownCf) (w g))
  · exact fun g => (tail (·.unknownWrites) (fun _ => rfl) (fun _ _ => rfl) (fun _ _ => rfl)
      (fun _ => rfl) (fun _ => rfl) g).trans (congrArg (·.unknownWrites) (w g))
  · exact fun g => (tail (·.pltCalls) (fun _ => rfl) (fun _ _ => rfl) (fun _ _ => rfl) (fun _ => rfl)
      (fun _ => rfl) g).trans (congrArg (·.pltCalls) (w g))
  · intro g; rw [a3]; exact large g
  · intro g hg
    rw [at3 g hg]
    cases ha : (S2 g).assumeUnsafe with
    | true =>
      rw [stackHeight, if_pos ha, s2]
      simp [((large g).mp ha).2]
    | false =>
      rw [(C51_writes co info g (S2 g) ha).2, s2]
      have : ¬ Oversized co g := fun ho => by simp [(large g).mpr ⟨hg, ho⟩] at ha
      simp [this]
  · intro g hg b a
    rw [at3 g hg]
    cases ha : (S2 g).assumeUnsafe with
    | true =>
      rw [stackHeight, if_pos ha, k2]
      simp [((large g).mp ha).2, Listed]
    | false =>
      rw [(C51_writes co info g (S2 g) ha).1, k2]
      have : ¬ Oversized co g := fun ho => by simp [(large g).mpr ⟨hg, ho⟩] at ha
      simp [this, Listed]

/-! ## C96 -/

section
variable {co : CodeObj} {info : StackInfo} {R : Func → RegFacts} {T : Sums}

/-- **C96, assumed unsafe (1).** A function assumed unsafe calls, directly or through others, an
oversized function of the object, or is one itself. -/
theorem C96_assumed_only (hnd : co.funcs.Nodup) (h : analyse co info R = some T) (f : Func)
    (ha : (T f).assumeUnsafe = true) : ∃ g, Reach T f g ∧ g ∈ co.funcs ∧ Oversized co g := by
  obtain ⟨S3, S4, m⟩ := analyse_marked hnd h
  rw [m.assume] at ha
  obtain ⟨k, hk, hk'⟩ := ipRun_assumed m.run f ha
  exact ⟨k, reach_congr (fun g => (m.callees g).symm) hk, (m.large k).mp hk'⟩

/-- **C96, assumed unsafe (2).** Without recursion that is the exact meaning of the mark. -/
theorem C96_assumed (hnd : co.funcs.Nodup) (h : analyse co info R = some T) (f : Func)
    (hf : f ∈ co.funcs) (hnr : NoRecursion T f) :
    (T f).assumeUnsafe = true ↔ ∃ g, Reach T f g ∧ g ∈ co.funcs ∧ Oversized co g := by
  refine ⟨C96_assumed_only hnd h f, ?_⟩
  obtain ⟨S3, S4, m⟩ := analyse_marked hnd h
  rintro ⟨g, hr, hg, ho⟩
  rw [m.assume]
  induction hr with
  | refl =>
    exact ((ipRun_marks m.run).2 _ hf (noRecursion_congr m.callees hnr)).assume.mpr
      (.inl ((m.large _).mpr ⟨hg, ho⟩))
  | @step f c g hc _ ih =>
    have hc' : c ∈ (S3 f).callees := by rw [← m.callees]; exact hc
    have := ih (m.known f hf c hc') (hnr.call hc) hg ho
    exact ((ipRun_marks m.run).2 f hf (noRecursion_congr m.callees hnr)).assume.mpr
      (.inr ⟨c, hc', this⟩)

/-- **C96, writes of callees.** Without recursion the mark says that a callee is not safe. -/
theorem C96_child (hnd : co.funcs.Nodup) (h : analyse co info R = some T) (f : Func)
    (hf : f ∈ co.funcs) (hnr : NoRecursion T f) :
    (T f).childWrites = true ↔ ∃ c ∈ (T f).callees, (T c).safe = false := by
  obtain ⟨S3, S4, m⟩ := analyse_marked hnd h
  rw [m.child, ((ipRun_marks m.run).2 f hf (noRecursion_congr m.callees hnr)).child, m.callees,
    (m.fresh f).2]
  simp [m.safe]

/-- **C96, own writes.** The mark says that the function is not oversized and that one of its
instructions writes to the stack at the return address or above. -/
theorem C96_self (hnd : co.funcs.Nodup) (h : analyse co info R = some T) (f : Func)
    (hf : f ∈ co.funcs) :
    (T f).selfUnsafeWrites = true ↔ ¬ Oversized co f ∧ ∃ b ∈ co.blocks f, WritesAbove info b := by
  obtain ⟨S3, S4, m⟩ := analyse_marked hnd h
  rw [m.self, m.above f hf]

/-- **C96, unknown writes.** The same for the list of writes with unknown address. -/
theorem C96_unknown (hnd : co.funcs.Nodup) (h : analyse co info R = some T) (f : Func)
    (hf : f ∈ co.funcs) (b : Blk) (a : Nat) :
    Listed (T f).unknownWrites b a ↔
      ¬ Oversized co f ∧ b ∈ co.blocks f ∧ WritesUnknown info b a := by
  obtain ⟨S3, S4, m⟩ := analyse_marked hnd h
  rw [m.unknownWrites, m.listed f hf b a]

/-- **C96, the verdict.** The verdict is the disjunction of the marks, recursion or not. -/
theorem C96_verdict (hnd : co.funcs.Nodup) (h : analyse co info R = some T) (f : Func)
    (hf : f ∈ co.funcs) :
    (T f).safe = false ↔ LocalReason (T f) ∨ (T f).childWrites = true := by
  obtain ⟨S3, S4, m⟩ := analyse_marked hnd h
  have hw := (ipRun_marks m.run).1 f hf
  have he := ipRun_erase m.run f
  rw [m.safe, Bool.not_eq_false', hw, ipWrites_iff, m.child]
  unfold LocalReason
  rw [m.self, m.assume, m.unknown, m.unknownWrites, m.plt,
    show (S3 f).selfUnsafeWrites = (S4 f).selfUnsafeWrites from (congrArg (·.selfUnsafeWrites) he).symm,
    show (S3 f).hasUnknownCf = (S4 f).hasUnknownCf from (congrArg (·.hasUnknownCf) he).symm,
    show (S3 f).unknownWrites = (S4 f).unknownWrites from (congrArg (·.unknownWrites) he).symm,
    show (S3 f).pltCalls = (S4 f).pltCalls from (congrArg (·.pltCalls) he).symm]

/-- **C96, against the comment.** `/repo/src/pass_manager.h:167-176` says that library calls and
unknown control flow make a function assumed unsafe.  They never do: without an oversized function
no function is assumed unsafe. -/
theorem C96_never_assumed (hnd : co.funcs.Nodup) (h : analyse co info R = some T)
    (hsmall : ∀ g ∈ co.funcs, ¬ Oversized co g) (f : Func) : (T f).assumeUnsafe = false := by
  cases ha : (T f).assumeUnsafe with
  | false => rfl
  | true =>
    obtain ⟨g, _, hg, ho⟩ := C96_assumed_only hnd h f ha
    exact absurd ho (hsmall g hg)

/-- **C96, against the tests.** `/repo/tests/analysis_test.cc` expects of `indirect_call_tree` and
`plt_call_tree` that the callee is assumed unsafe and the caller is not.  Without recursion no run of
the pipeline gives that. -/
theorem C96_passed_on (hnd : co.funcs.Nodup) (h : analyse co info R = some T) (f c : Func)
    (hf : f ∈ co.funcs) (hnr : NoRecursion T f) (hc : c ∈ (T f).callees)
    (ha : (T c).assumeUnsafe = true) : (T f).assumeUnsafe = true := by
  obtain ⟨g, hr, hg⟩ := C96_assumed_only hnd h c ha
  exact (C96_assumed hnd h f hf hnr).mpr ⟨g, .step hc hr, hg⟩

end

/-! ## The test programs -/

/-- What a function of a test program does between its entry and its return. -/
inductive TestBody
  | leaf
  /-- writes through a pointer -/
  | store
  | calls (g : Func)
  | callsLib (name : String)
  | callsPtr
  deriving DecidableEq

/-- The code of a test program: function `f` has the blocks `2 * f` and `2 * f + 1`, the first
ending with the call.  Block `1001` is the stub of the library function `lib`; `1000` is the sink. -/
def testCode (bodies : List TestBody) : CodeObj where
  funcs := List.range bodies.length
  addr := fun f => 4096 + 32 * f
  entry := fun f => 2 * f
  blocks := fun f => [2 * f, 2 * f + 1]
  exitBlocks := fun f => [2 * f + 1]
  targets := fun b =>
    if b % 2 = 0 then match bodies[b / 2]? with
      | some (.calls g) => [{ id := 2 * b, src := b, trg := 2 * g, type := .call, interproc := true },
          { id := 2 * b + 1, src := b, trg := b + 1, type := .callFt }]
      | some (.callsLib _) => [{ id := 2 * b, src := b, trg := 1001, type := .call, interproc := true },
          { id := 2 * b + 1, src := b, trg := b + 1, type := .callFt }]
      | some .callsPtr =>
        [{ id := 2 * b, src := b, trg := 1000, type := .call, sink := true, interproc := true },
          { id := 2 * b + 1, src := b, trg := b + 1, type := .callFt }]
      | _ => [{ id := 2 * b + 1, src := b, trg := b + 1, type := .fallthrough }]
    else [{ id := 2 * b, src := b, trg := 1000, type := .ret, sink := true, interproc := true }]
  start := fun b => 4096 + 16 * b
  last := fun b => 4096 + 16 * b + 8
  funcsAt := fun b => [b / 2]
  linkage := fun a => if a = 4096 + 16 * 1001 then
      (bodies.findSome? fun | .callsLib n => some n | _ => none).map String.toList
    else none
  returnBlocks := fun f => [2 * f + 1]
  endAddr := fun b => 4096 + 16 * b + 16

/-- The stack analysis of a test program. -/
def testInfo (bodies : List TestBody) : StackInfo where
  insns := fun b =>
    if b % 2 = 0 then
      { addr := 4096 + 16 * b, writesMemory := true, outs := [.stack (-24)] } ::
      match bodies[b / 2]? with
      | some .store => [{ addr := 4096 + 16 * b + 8, writesMemory := true, outs := [.unknown] }]
      | some (.calls _) | some (.callsLib _) | some .callsPtr =>
        [{ addr := 4096 + 16 * b + 8, frameSwitch := true, writesMemory := true }]
      | _ => []
    else [{ addr := 4096 + 16 * b + 8, frameSwitch := true }]
  heightEnd := fun _ => some (-16)
  heightStart := fun _ => some (-8)

/-- The marks which `/repo/tests/analysis_test.cc` looks at: `safe`, `self_writes` (now
`self_unsafe_writes`), `child_writes` and `assume_unsafe`. -/
def testMarks (bodies : List TestBody) (f : Func) : Option (Bool × Bool × Bool × Bool) :=
  (analyse (testCode bodies) (testInfo bodies) fun _ => {}).map fun T =>
    ((T f).safe, (T f).selfUnsafeWrites, (T f).childWrites, (T f).assumeUnsafe)

/-- `/repo/tests/safe_non_leaf.cc`: `leaf_fn`, `non_leaf_fn`, `safe_non_leaf_fn`. -/
def safeNonLeaf : List TestBody := [.leaf, .calls 0, .calls 1]
/-- `/repo/tests/unsafe_non_leaf.cc`: `ns_leaf_fn`, `non_leaf_fn`, `unsafe_non_leaf_fn`. -/
def unsafeNonLeaf : List TestBody := [.store, .calls 0, .calls 1]
/-- `/repo/tests/indirect_call_tree.cc`: `leaf_fn`, `indirect_call`, `indirect_call_tree`. -/
def indirectTree : List TestBody := [.leaf, .callsPtr, .calls 1]
/-- `/repo/tests/plt_call_tree.cc`: `plt_call`, `plt_call_tree`. -/
def pltTree : List TestBody := [.callsLib "puts", .calls 0]

example : [0, 1, 2].map (testMarks safeNonLeaf) =
    [some (true, false, false, false), some (true, false, false, false),
      some (true, false, false, false)] := by decide +kernel
example : [1, 2].map (testMarks unsafeNonLeaf) =
    [some (false, false, true, false), some (false, false, true, false)] := by decide +kernel
example : testMarks indirectTree 2 = some (false, false, true, false) := by decide +kernel
example : testMarks pltTree 1 = some (false, false, true, false) := by decide +kernel

/-- **C96, the tests fail.** `/repo/tests/analysis_test.cc` expects `assume_unsafe` of functions which
call through a pointer or call a library, and `self_writes` of functions which store through a
pointer.  In these models of the test programs none of the marks is set; the verdicts are as
expected. -/
theorem C96_refuted_tests :
    testMarks indirectTree 1 = some (false, false, false, false) ∧
    testMarks pltTree 0 = some (false, false, false, false) ∧
    testMarks unsafeNonLeaf 0 = some (false, false, false, false) :=
  ⟨by decide +kernel, by decide +kernel, by decide +kernel⟩

/-- Function 0 calls functions 2 and 1; function 1 calls function 0; function 2 is oversized. -/
def mutualCode : CodeObj where
  funcs := [0, 1, 2]
  addr := fun f => 4096 + 160 * f
  entry := fun f => 10 * f
  blocks := fun f => if f = 0 then [0, 1] else [10 * f]
  exitBlocks := fun f => if f = 0 then [1] else [10 * f]
  targets := fun b =>
    if b = 0 then [{ id := 0, src := 0, trg := 20, type := .call, interproc := true }]
    else if b = 1 then [{ id := 1, src := 1, trg := 10, type := .call, interproc := true }]
    else if b = 10 then [{ id := 2, src := 10, trg := 0, type := .call, interproc := true }]
    else []
  start := fun b => 4096 + 16 * b
  last := fun b => 4096 + 16 * b + 8
  funcsAt := fun b => [b / 10]
  linkage := fun _ => none
  endAddr := fun b => if b = 20 then 30000 else 4096 + 16 * b + 16

/-- A stack analysis which finds nothing. -/
def noInfo : StackInfo where
  insns := fun _ => []
  heightEnd := fun _ => none
  heightStart := fun _ => none

/-- **C96 is false with recursion.** A function calls one which is not safe, and reaches an oversized
one, and neither is marked. -/
theorem C96_refuted_recursion : ∃ co info R T f c g, co.funcs.Nodup ∧ analyse co info R = some T ∧
    f ∈ co.funcs ∧ c ∈ (T f).callees ∧ (T c).safe = false ∧ (T f).childWrites = false ∧
    Reach T f g ∧ g ∈ co.funcs ∧ Oversized co g ∧ (T f).assumeUnsafe = false := by
  let T := (analyse mutualCode noInfo fun _ => {}).getD fun _ => {}
  refine ⟨mutualCode, noInfo,
    fun _ => {}, T, 1, 0, 2, by decide, ?_, by decide, ?_, ?_, ?_, ?_, by decide,
    ⟨20, .inl (by decide), by decide⟩, ?_⟩
  · have : (analyse mutualCode noInfo fun _ => {}).isSome = true := by decide +kernel
    obtain ⟨T', hT⟩ := Option.isSome_iff_exists.mp this
    show _ = some T
    simp only [T, hT, Option.getD_some]
  · decide +kernel
  · decide +kernel
  · decide +kernel
  · exact .step (show 0 ∈ (T 1).callees by decide +kernel)
      (.step (show 2 ∈ (T 0).callees by decide +kernel) .refl)
  · decide +kernel

/-- A concrete object for the theorems: `plt_call_tree`, with no recursion and no large function. -/
example : (testCode pltTree).funcs.Nodup ∧
    (analyse (testCode pltTree) (testInfo pltTree) fun _ => {}).isSome = true ∧
    (∀ g ∈ (testCode pltTree).funcs, lastEnd (testCode pltTree) g ≤ (testCode pltTree).addr g + 20000) :=
  ⟨by decide, by decide +kernel, by decide⟩

/-- A concrete object in which a caller is assumed unsafe because of its callee. -/
def bigCallee : CodeObj := { mutualCode with
  targets := fun b => if b = 10 then [] else mutualCode.targets b }

example : ((analyse bigCallee noInfo fun _ => {}).map fun T =>
    ([0, 1, 2].map fun f => (T f).assumeUnsafe, [0, 1, 2].map fun f => (T f).childWrites)) =
    some ([true, false, true], [true, false, false]) := by decide +kernel

end Verif
