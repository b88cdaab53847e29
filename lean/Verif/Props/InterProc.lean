import Verif.InterProc

/-!
# C18, C19, C49: what the safe verdict means
-/

namespace Verif

/-! ## C49: trusted library calls -/

/-- The name test is the specification. -/
theorem C49_trusted_iff (name : List Char) : isSafePLTCall name = true ↔ TrustedName name := by
  unfold isSafePLTCall TrustedName
  rw [← strFind_zero]
  generalize "malloc".toList = a, "_Zna".toList = b, "strlen".toList = c, "strcmp".toList = d
  split
  · simp [*]
  split
  · simp [*]
  split
  · simp [*]
  split
  · simp [*]
  · simp [*]

/-- `unsafePLTCalls` finds exactly the untrusted calls. -/
theorem unsafePLTCalls_iff (s : FuncSummary) :
    s.unsafePLTCalls = true ↔ ∃ a name, (a, name) ∈ s.pltCalls ∧ ¬ TrustedName name := by
  unfold FuncSummary.unsafePLTCalls
  induction s.pltCalls with
  | nil => simp [FuncSummary.unsafePLTCalls.go]
  | cons p rest ih =>
    obtain ⟨a, name⟩ := p
    simp only [FuncSummary.unsafePLTCalls.go]
    split
    · rename_i h
      rw [C49_trusted_iff] at h
      rw [ih]
      constructor
      · rintro ⟨b, m, hm, hn⟩; exact ⟨b, m, by simp [hm], hn⟩
      · rintro ⟨b, m, hm, hn⟩
        rcases List.mem_cons.mp hm with e | hm
        · cases e; exact absurd h hn
        · exact ⟨b, m, hm, hn⟩
    · rename_i h
      rw [C49_trusted_iff] at h
      simp only [true_iff]
      exact ⟨a, name, by simp, h⟩

theorem ipWrites_iff (s : FuncSummary) :
    ipWrites s = true ↔ LocalReason s ∨ s.childWrites = true := by
  unfold ipWrites LocalReason
  rw [← unsafePLTCalls_iff]
  simp only [Bool.or_eq_true, Bool.not_eq_true', List.isEmpty_eq_false_iff]
  constructor
  · rintro (((((h | h) | h) | h) | h) | h) <;> simp [h]
  · rintro ((h | h | h | h | h) | h) <;> simp [h]

/-! ## C19: an unsafe verdict has a reason -/

/-- Everything marked so far is justified. -/
structure Justified (S0 : Sums) (S : Sums) : Prop where
  facts : SameFacts S0 S
  writes : ∀ g, (S g).writes = true → HasReason S0 g
  child : ∀ g, (S g).childWrites = true → HasReason S0 g
  assume : ∀ g, (S g).assumeUnsafe = true → HasReason S0 g

theorem Justified.localReason {S0 S : Sums} (h : Justified S0 S) {g : Func}
    (hl : LocalReason (S g)) : HasReason S0 g := by
  rcases hl with hl | hl | hl | hl | hl
  · exact ⟨g, .refl, .inl (by rw [← h.facts.self]; exact hl)⟩
  · exact h.assume g hl
  · exact ⟨g, .refl, .inr (.inr (.inl (by rw [← h.facts.unknown]; exact hl)))⟩
  · exact ⟨g, .refl, .inr (.inr (.inr (.inl (by rw [← h.facts.unknownWrites]; exact hl))))⟩
  · exact ⟨g, .refl, .inr (.inr (.inr (.inr (by rw [← h.facts.plt]; exact hl))))⟩

theorem Justified.callee {S0 S : Sums} (h : Justified S0 S) {f c : Func}
    (hc : c ∈ (S0 f).callees) : Justified S0 (S.set f { S f with
      childWrites := (S f).childWrites || (S c).writes
      assumeUnsafe := (S f).assumeUnsafe || (S c).assumeUnsafe }) := by
  refine ⟨h.facts.trans (.set_callee _ _ _), ?_, ?_, ?_⟩ <;> intro g hg <;>
    by_cases hgf : g = f
  · subst hgf; rw [Sums.set_same] at hg; exact h.writes g hg
  · rw [Sums.set_other _ _ hgf] at hg; exact h.writes g hg
  · subst hgf
    rw [Sums.set_same] at hg
    rcases Bool.or_eq_true_iff.mp hg with hg | hg
    · exact h.child g hg
    · exact (h.writes c hg).call hc
  · rw [Sums.set_other _ _ hgf] at hg; exact h.child g hg
  · subst hgf
    rw [Sums.set_same] at hg
    rcases Bool.or_eq_true_iff.mp hg with hg | hg
    · exact h.assume g hg
    · exact (h.assume c hg).call hc
  · rw [Sums.set_other _ _ hgf] at hg; exact h.assume g hg

theorem Justified.setWrites {S0 S : Sums} (h : Justified S0 S) (f : Func) :
    Justified S0 (S.set f { S f with writes := ipWrites (S f) }) := by
  refine ⟨h.facts.trans (.set_writes _ _ _), ?_, ?_, ?_⟩ <;> intro g hg <;>
    by_cases hgf : g = f
  · subst hgf
    rw [Sums.set_same] at hg
    rcases (ipWrites_iff _).mp hg with hl | hl
    · exact h.localReason hl
    · exact h.child g hl
  · rw [Sums.set_other _ _ hgf] at hg; exact h.writes g hg
  · subst hgf; rw [Sums.set_same] at hg; exact h.child g hg
  · rw [Sums.set_other _ _ hgf] at hg; exact h.child g hg
  · subst hgf; rw [Sums.set_same] at hg; exact h.assume g hg
  · rw [Sums.set_other _ _ hgf] at hg; exact h.assume g hg

theorem ipVisit_justified {funcs : List Func} {S0 : Sums} :
    ∀ (n : Nat) (t t' : Trav) (f : Func), Justified S0 t.sums → ipVisit funcs n t f = some t' →
      Justified S0 t'.sums := by
  intro n
  induction n with
  | zero => intro t t' f _ h; cases h
  | succ n ih =>
    intro t t' f hj h
    obtain ⟨t1, h1, rfl⟩ := ipVisit_cases h
    have hj1 : Justified S0 t1.sums :=
      foldlM_inv (fun u : Trav => Justified S0 u.sums)
        (ipCallee (ipVisit funcs n) funcs f) (t.sums f).callees
        { t with visited := f :: t.visited } t1
        (by
          intro c u u' hcm hu hstep
          rw [hj.facts.callees] at hcm
          obtain ⟨u1, hu1, rfl⟩ := ipCallee_cases hstep
          rcases hu1 with ⟨_, rfl⟩ | ⟨_, _, hvis⟩
          · exact hu.callee hcm
          · exact (ih u u1 c hu hvis).callee hcm)
        hj h1
    exact hj1.setWrites f

/-- **C19.** A function found unsafe can reach a function with a local reason: for every
call graph (recursive or not) and every visiting order. -/
theorem C19_unsafe_has_reason (funcs : List Func) (S S' : Sums) (hfresh : Fresh S)
    (hrun : ipRun funcs S = some S') (f : Func) (hu : (S' f).isSafe = false) :
    ∃ g, Reach S f g ∧ LocalReason (S g) := by
  unfold ipRun at hrun
  cases hf : funcs.foldlM (ipTop funcs) { sums := S, visited := [] } with
  | none => rw [hf] at hrun; cases hrun
  | some t =>
    rw [hf] at hrun
    cases hrun
    have hj0 : Justified S S :=
      ⟨.refl S, fun g h => absurd h (by rw [(hfresh g).1]; decide),
        fun g h => absurd h (by rw [(hfresh g).2]; decide),
        fun g h => ⟨g, .refl, .inr (.inl h)⟩⟩
    have := foldlM_inv (fun u : Trav => Justified S u.sums) (ipTop funcs) funcs _ t
      (by
        intro g u u' _ hu' hstep
        unfold ipTop at hstep
        split at hstep
        · cases hstep; exact hu'
        · exact ipVisit_justified _ u u' g hu' hstep)
      hj0 hf
    exact this.writes f (by simpa [FuncSummary.isSafe] using hu)

/-! ## C18: a safe verdict is right where there is no recursion -/

/-- Finished functions below which there is no recursion have the right verdict; `stack`
holds the functions still being visited. -/
def Settled (S0 : Sums) (t : Trav) (stack : List Func) : Prop :=
  ∀ g ∈ t.visited, g ∉ stack → NoRecursion S0 g → HasReason S0 g → (t.sums g).writes = true

theorem SameFacts.localReason {S0 S : Sums} (h : SameFacts S0 S) {g : Func}
    (hl : LocalReason (S0 g)) : LocalReason (S g) := by
  rcases hl with hl | hl | hl | hl | hl
  · exact .inl (by rw [h.self]; exact hl)
  · exact .inr (.inl (h.assume_mono g hl))
  · exact .inr (.inr (.inl (by rw [h.unknown]; exact hl)))
  · exact .inr (.inr (.inr (.inl (by rw [h.unknownWrites]; exact hl))))
  · exact .inr (.inr (.inr (.inr (by rw [h.plt]; exact hl))))

theorem ipVisit_settled {funcs : List Func} {S0 : Sums} :
    ∀ (n : Nat) (t t' : Trav) (f : Func) (stack : List Func), SameFacts S0 t.sums →
      f ∉ t.visited → (∀ s ∈ stack, Reach S0 s f) → (∀ s ∈ stack, s ∈ t.visited) →
      Settled S0 t stack → ipVisit funcs n t f = some t' → Settled S0 t' stack := by
  intro n
  induction n with
  | zero => intro t t' f stack _ _ _ _ _ h; cases h
  | succ n ih =>
    intro t t' f stack hs hfv hst hsv hset h
    obtain ⟨t1, h1, rfl⟩ := ipVisit_cases h
    have key := foldlM_prefix
      (fun done u => SameFacts S0 u.sums ∧ f ∈ u.visited ∧ (∀ s ∈ stack, s ∈ u.visited) ∧
        Settled S0 u (f :: stack) ∧
        ∀ c ∈ done, NoRecursion S0 f → HasReason S0 c → (u.sums f).childWrites = true)
      (ipCallee (ipVisit funcs n) funcs f) (t.sums f).callees []
      { t with visited := f :: t.visited } t1
      (by
        rintro done c u u' hcm ⟨hu, hfu, hsu, hsetu, hdone⟩ hstep
        rw [hs.callees] at hcm
        have hcst : NoRecursion S0 f → c ∉ f :: stack := by
          intro hnr hmem
          rcases List.mem_cons.mp hmem with e | hmem
          · subst e; exact hnr c c .refl hcm .refl
          · exact hnr f c .refl hcm (hst c hmem)
        obtain ⟨u1, hu1, rfl⟩ := ipCallee_cases hstep
        have hmain : SameFacts S0 u1.sums ∧ f ∈ u1.visited ∧ (∀ s ∈ stack, s ∈ u1.visited) ∧
            Settled S0 u1 (f :: stack) ∧ c ∈ u1.visited ∧ (u1.sums f) = (u.sums f) := by
          rcases hu1 with ⟨hcv, rfl⟩ | ⟨hcv, _, hvis⟩
          · exact ⟨hu, hfu, hsu, hsetu, hcv, rfl⟩
          · have hfr := ipVisit_frame n u u1 c hvis
            refine ⟨hu.trans hfr.1.facts, hfr.1.mono f hfu,
              fun s hs' => hfr.1.mono s (hsu s hs'), ?_, hfr.2, ?_⟩
            · apply ih u u1 c (f :: stack) hu hcv _ _ hsetu hvis
              · intro s hs'
                rcases List.mem_cons.mp hs' with e | hs'
                · subst e; exact .step hcm .refl
                · exact (hst s hs').call hcm
              · intro s hs'
                rcases List.mem_cons.mp hs' with e | hs'
                · subst e; exact hfu
                · exact hsu s hs'
            · exact hfr.1.keep f hfu (by intro e; subst e; exact hcv hfu)
        obtain ⟨m1, m2, m3, m4, m5, m6⟩ := hmain
        refine ⟨m1.trans (.set_callee _ _ _), m2, m3, ?_, ?_⟩
        · intro g hg hgs hnr hr
          show (u1.sums.set f _ g).writes = true
          rw [Sums.set_other _ _ (by intro e; subst e; exact hgs (by simp))]
          exact m4 g hg hgs hnr hr
        · intro d hd hnr hr
          show (u1.sums.set f _ f).childWrites = true
          rw [Sums.set_same]
          rcases List.mem_append.mp hd with hd | hd
          · have := hdone d hd hnr hr
            simp only [m6, this, Bool.true_or]
          · have e : d = c := by simpa using hd
            subst e
            have := m4 d m5 (hcst hnr) (hnr.call hcm) hr
            simp only [this, Bool.or_true])
      ⟨hs, by simp, fun s hs' => by simp [hsv s hs'], by
        intro g hg hgs hnr hr
        rcases List.mem_cons.mp hg with e | hg
        · subst e; exact absurd (List.mem_cons_self) hgs
        · exact hset g hg (fun hm => hgs (List.mem_cons_of_mem _ hm)) hnr hr, by simp⟩ h1
    obtain ⟨k1, _, _, k4, k5⟩ := key
    intro g hg hgs hnr hr
    show (t1.sums.set f _ g).writes = true
    by_cases hgf : g = f
    · subst hgf
      rw [Sums.set_same]
      apply (ipWrites_iff _).mpr
      rcases hr.cases with hl | ⟨c, hc, hrc⟩
      · exact .inl (k1.localReason hl)
      · exact .inr (k5 c (by rw [List.nil_append, hs.callees]; exact hc) hnr hrc)
    · rw [Sums.set_other _ _ hgf]
      exact k4 g hg (by intro hm; rcases List.mem_cons.mp hm with e | hm; exact hgf e; exact hgs hm)
        hnr hr

/-- Every function of the code object is visited. -/
theorem ipRun_visited {funcs : List Func} {S : Sums} {t : Trav}
    (hf : funcs.foldlM (ipTop funcs) { sums := S, visited := [] } = some t) :
    ∀ f ∈ funcs, f ∈ t.visited := by
  have := foldlM_prefix (fun done (u : Trav) => ∀ f ∈ done, f ∈ u.visited) (ipTop funcs) funcs []
    { sums := S, visited := [] } t
    (by
      intro done g u u' _ hd hstep f hfd
      unfold ipTop at hstep
      split at hstep
      · cases hstep
        rcases List.mem_append.mp hfd with h | h
        · exact hd f h
        · have : f = g := by simpa using h
          subst this; assumption
      · have hfr := ipVisit_frame _ u u' g hstep
        rcases List.mem_append.mp hfd with h | h
        · exact hfr.1.mono f (hd f h)
        · have : f = g := by simpa using h
          subst this; exact hfr.2)
    (by simp) hf
  simpa using this

/-- **C18, what holds.** A function found safe, below which nothing is recursive, reaches
no function with a reason: for every visiting order.  Missing: the same for functions
that can reach (mutual) recursion, where it is false (`C18_refuted`). -/
theorem C18_safe_reaches_no_reason_partial (funcs : List Func) (S S' : Sums)
    (hrun : ipRun funcs S = some S') (f : Func) (hf : f ∈ funcs) (hnr : NoRecursion S f)
    (hsafe : (S' f).isSafe = true) : ∀ g, Reach S f g → ¬ LocalReason (S g) := by
  unfold ipRun at hrun
  cases hfold : funcs.foldlM (ipTop funcs) { sums := S, visited := [] } with
  | none => rw [hfold] at hrun; cases hrun
  | some t =>
    rw [hfold] at hrun
    cases hrun
    have hset := foldlM_inv (fun u : Trav => SameFacts S u.sums ∧ Settled S u [])
      (ipTop funcs) funcs _ t
      (by
        rintro g u u' _ ⟨hu, hs⟩ hstep
        unfold ipTop at hstep
        split at hstep
        · cases hstep; exact ⟨hu, hs⟩
        · rename_i hv
          exact ⟨hu.trans (ipVisit_frame _ u u' g hstep).1.facts,
            ipVisit_settled _ u u' g [] hu hv (by simp) (by simp) hs hstep⟩)
      ⟨.refl S, by intro g hg; cases hg⟩ hfold
    intro g hr hl
    have := hset.2 f (ipRun_visited hfold f hf) (by simp) hnr ⟨g, hr, hl⟩
    simp [FuncSummary.isSafe, this] at hsafe

/-! ## C18 with recursion: functions visited first -/

/-- What a visit of `f` starting from `t` guarantees: every newly visited function has all
its callees visited, and passes its reasons on to `f`. -/
theorem ipVisit_white {funcs : List Func} {S0 : Sums} :
    ∀ (n : Nat) (t t' : Trav) (f : Func), SameFacts S0 t.sums → f ∉ t.visited →
      ipVisit funcs n t f = some t' →
      ∀ g ∈ t'.visited, g ∉ t.visited →
        Reach S0 f g ∧ (∀ c ∈ (S0 g).callees, c ∈ t'.visited) ∧
        (LocalReason (S0 g) → (t'.sums f).writes = true ∧ (t'.sums g).writes = true) := by
  intro n
  induction n with
  | zero => intro t t' f _ _ h; cases h
  | succ n ih =>
    intro t t' f hs hfv h
    obtain ⟨t1, h1, rfl⟩ := ipVisit_cases h
    have key := foldlM_prefix
      (fun done u => SameFacts S0 u.sums ∧ f ∈ u.visited ∧ (∀ c ∈ done, c ∈ u.visited) ∧
        ∀ g ∈ u.visited, g ∉ t.visited → g ≠ f →
          Reach S0 f g ∧ (∀ c ∈ (S0 g).callees, c ∈ u.visited) ∧
          (LocalReason (S0 g) → (u.sums f).childWrites = true ∧ (u.sums g).writes = true))
      (ipCallee (ipVisit funcs n) funcs f) (t.sums f).callees []
      { t with visited := f :: t.visited } t1
      (by
        rintro done c u u' hcm ⟨hu, hfu, hdone, hnew⟩ hstep
        rw [hs.callees] at hcm
        obtain ⟨u1, hu1, rfl⟩ := ipCallee_cases hstep
        rcases hu1 with ⟨hcv, rfl⟩ | ⟨hcv, _, hvis⟩
        · refine ⟨hu.trans (.set_callee _ _ _), hfu, ?_, ?_⟩
          · intro d hd
            rcases List.mem_append.mp hd with hd | hd
            · exact hdone d hd
            · have : d = c := by simpa using hd
              subst this; exact hcv
          · intro g hg hgt hgf
            obtain ⟨a, b, d⟩ := hnew g hg hgt hgf
            refine ⟨a, b, fun hl => ?_⟩
            show (u1.sums.set f _ f).childWrites = true ∧ (u1.sums.set f _ g).writes = true
            rw [Sums.set_same, Sums.set_other _ _ hgf]
            simp only [d hl, Bool.true_or, and_self]
        · have hfr := ipVisit_frame n u u1 c hvis
          have hkeep : u1.sums f = u.sums f :=
            hfr.1.keep f hfu (by intro e; subst e; exact hcv hfu)
          have hw := ih u u1 c hu hcv hvis
          refine ⟨(hu.trans hfr.1.facts).trans (.set_callee _ _ _), hfr.1.mono f hfu, ?_, ?_⟩
          · intro d hd
            rcases List.mem_append.mp hd with hd | hd
            · exact hfr.1.mono d (hdone d hd)
            · have : d = c := by simpa using hd
              subst this; exact hfr.2
          · intro g hg hgt hgf
            show _ ∧ _ ∧ (_ → (u1.sums.set f _ f).childWrites = true ∧
              (u1.sums.set f _ g).writes = true)
            rw [Sums.set_same, Sums.set_other _ _ hgf]
            by_cases hgu : g ∈ u.visited
            · obtain ⟨a, b, d⟩ := hnew g hgu hgt hgf
              refine ⟨a, fun x hx => hfr.1.mono x (b x hx), fun hl => ?_⟩
              have hkg := hfr.1.keep g hgu (by intro e; subst e; exact hcv hgu)
              simp only [hkeep, hkg, d hl, Bool.true_or, and_self]
            · obtain ⟨a, b, d⟩ := hw g hg hgu
              refine ⟨.step hcm a, b, fun hl => ?_⟩
              simp only [d hl, Bool.or_true, and_self])
      ⟨hs, by simp, by simp, by
        intro g hg hgt hgf
        rcases List.mem_cons.mp hg with e | hg
        · exact absurd e hgf
        · exact absurd hg hgt⟩ h1
    obtain ⟨k1, k2, k3, k4⟩ := key
    intro g hg hgt
    show _ ∧ _ ∧ (_ → (t1.sums.set f _ f).writes = true ∧ (t1.sums.set f _ g).writes = true)
    rw [Sums.set_same]
    by_cases hgf : g = f
    · subst hgf
      rw [Sums.set_same]
      refine ⟨.refl, fun c hc => k3 c (by rw [List.nil_append, hs.callees]; exact hc),
        fun hl => ?_⟩
      have := (ipWrites_iff _).mpr (.inl (k1.localReason hl))
      exact ⟨this, this⟩
    · obtain ⟨a, b, d⟩ := k4 g hg hgt hgf
      rw [Sums.set_other _ _ hgf]
      exact ⟨a, b, fun hl => ⟨(ipWrites_iff _).mpr (.inr (d hl).1), (d hl).2⟩⟩

/-- The visited functions are those reachable from the functions processed so far, and
include all callees of their members. -/
theorem ipTop_prefix {funcs l : List Func} {S : Sums} {t : Trav}
    (hf : l.foldlM (ipTop funcs) { sums := S, visited := [] } = some t) :
    SameFacts S t.sums ∧ (∀ g ∈ t.visited, ∃ p ∈ l, Reach S p g) := by
  have := foldlM_prefix
    (fun done (u : Trav) => SameFacts S u.sums ∧ ∀ g ∈ u.visited, ∃ p ∈ done, Reach S p g)
    (ipTop funcs) l [] { sums := S, visited := [] } t
    (by
      rintro done f u u' _ ⟨hu, hd⟩ hstep
      unfold ipTop at hstep
      split at hstep
      · cases hstep
        exact ⟨hu, fun g hg => (hd g hg).imp fun p hp => ⟨by simp [hp.1], hp.2⟩⟩
      · rename_i hv
        refine ⟨hu.trans (ipVisit_frame _ u u' f hstep).1.facts, fun g hg => ?_⟩
        by_cases hgu : g ∈ u.visited
        · exact (hd g hgu).imp fun p hp => ⟨by simp [hp.1], hp.2⟩
        · exact ⟨f, by simp, (ipVisit_white _ u u' f hu hv hstep g hg hgu).1⟩)
    ⟨.refl S, by simp⟩ hf
  simpa using this

/-- A verdict, once given, is not changed by the visits of later functions. -/
theorem ipTop_keep {funcs l : List Func} {t t' : Trav} (hf : l.foldlM (ipTop funcs) t = some t')
    (g : Func) (hg : g ∈ t.visited) : t'.sums g = t.sums g := by
  exact (foldlM_inv (fun u : Trav => g ∈ u.visited ∧ u.sums g = t.sums g) (ipTop funcs) l t t'
    (by
      rintro f u u' _ ⟨hv, he⟩ hstep
      unfold ipTop at hstep
      split at hstep
      · cases hstep; exact ⟨hv, he⟩
      · rename_i hfv
        have hfr := ipVisit_frame _ u u' f hstep
        exact ⟨hfr.1.mono g hv,
          (hfr.1.keep g hv (by intro e; subst e; exact hfv hv)).trans he⟩)
    ⟨hg, rfl⟩ hf).2

/-- **C18, recursion allowed.** The verdict of a function is right, even if it is recursive,
when none of the functions listed before it reaches anything it reaches.  In particular the
first function of the code object always gets the right verdict. -/
theorem C18_visited_first_partial (pre post : List Func) (f : Func) (S S' : Sums)
    (hrun : ipRun (pre ++ f :: post) S = some S')
    (hpre : ∀ p ∈ pre, ∀ g, Reach S p g → ¬ Reach S f g)
    (hsafe : (S' f).isSafe = true) : ∀ g, Reach S f g → ¬ LocalReason (S g) := by
  unfold ipRun at hrun
  rw [List.foldlM_append] at hrun
  generalize hfs : pre ++ f :: post = funcs at hrun
  cases h1 : pre.foldlM (ipTop funcs) { sums := S, visited := [] } with
  | none => rw [h1] at hrun; cases hrun
  | some t =>
    rw [h1] at hrun
    simp only [Option.bind_eq_bind, Option.bind_some, List.foldlM_cons] at hrun
    obtain ⟨hfacts, hvis⟩ := ipTop_prefix h1
    have hfv : f ∉ t.visited := fun hv => by
      obtain ⟨p, hp, hr⟩ := hvis f hv
      exact hpre p hp f hr .refl
    cases h2 : ipTop funcs t f with
    | none => rw [h2] at hrun; cases hrun
    | some u =>
      rw [h2] at hrun
      simp only [Option.bind_some] at hrun
      cases h3 : post.foldlM (ipTop funcs) u with
      | none => rw [h3] at hrun; cases hrun
      | some t' =>
        rw [h3] at hrun
        cases hrun
        unfold ipTop at h2
        rw [if_neg hfv] at h2
        have hfu := (ipVisit_frame _ t u f h2).2
        have hw := ipVisit_white _ t u f hfacts hfv h2
        have hkeep := ipTop_keep h3 f hfu
        have hreach : ∀ g, Reach S f g → g ∈ u.visited := by
          have aux : ∀ a g, Reach S a g → a ∈ u.visited → Reach S f a → g ∈ u.visited := by
            intro a g hr
            induction hr with
            | refl => exact fun h _ => h
            | @step a c g hc _ ih =>
              intro ha hfa
              have hat : a ∉ t.visited := fun hv => by
                obtain ⟨p, hp, hr⟩ := hvis a hv
                exact hpre p hp a hr hfa
              exact ih ((hw a ha hat).2.1 c hc) (hfa.call hc)
          exact fun g hr => aux f g hr hfu .refl
        intro g hr hl
        have hgt : g ∉ t.visited := fun hv => by
          obtain ⟨p, hp, hr'⟩ := hvis g hv
          exact hpre p hp g hr' hr
        have := ((hw g (hreach g hr) hgt).2.2 hl).1
        rw [FuncSummary.isSafe, hkeep, this] at hsafe
        cases hsafe

/-! ## Concrete call graphs -/

/-- Function 0 calls 1 and 2, function 1 calls 0, function 2 writes unsafely. -/
def recursiveGraph : Sums
  | 0 => { callees := [1, 2] }
  | 1 => { callees := [0] }
  | 2 => { selfUnsafeWrites := true }
  | _ => {}

/-- **C18 is false with recursion.** Function 1 is found safe and skipped although it calls
function 0, which calls function 2, which writes unsafely. -/
theorem C18_refuted : ∃ (funcs : List Func) (S S' : Sums) (f g : Func),
    Closed S funcs ∧ Fresh S ∧ f ∈ funcs ∧ ipRun funcs S = some S' ∧ (S' f).isSafe = true ∧
      Reach S f g ∧ LocalReason (S g) := by
  obtain ⟨S', h⟩ : ∃ S', ipRun [0, 1, 2] recursiveGraph = some S' := ⟨_, rfl⟩
  refine ⟨[0, 1, 2], recursiveGraph, S', 1, 2, ?_, ?_, by decide, h, ?_, ?_, .inl rfl⟩
  · intro f hf c hc
    simp only [List.mem_cons, List.not_mem_nil, or_false] at hf
    rcases hf with rfl | rfl | rfl <;> simp_all [recursiveGraph]
  · intro f
    unfold recursiveGraph
    split <;> exact ⟨rfl, rfl⟩
  · cases h; rfl
  · exact .step (c := 0) (by decide) (.step (c := 2) (by decide) .refl)

/-- A chain 0 → 1 → 2 next to a lone function 3: function 2 calls `memcpy`. -/
def chainGraph : Sums
  | 0 => { callees := [1] }
  | 1 => { callees := [2], pltCalls := [(8, "strlen".toList)] }
  | 2 => { pltCalls := [(16, "memcpy".toList)] }
  | _ => {}

/-- The hypotheses of C18 and C19 are met: function 3 is safe, 0 is unsafe because of 2. -/
example : ∃ S', ipRun [1, 0, 2, 3] chainGraph = some S' ∧ (S' 3).isSafe = true ∧
    (S' 0).isSafe = false ∧ (S' 2).isSafe = false ∧ Closed chainGraph [1, 0, 2, 3] ∧
    Fresh chainGraph ∧ NoRecursion chainGraph 3 ∧ Reach chainGraph 0 2 := by
  refine ⟨_, rfl, rfl, rfl, rfl, ?_, ?_, ?_, ?_⟩
  · intro f hf c hc
    simp only [List.mem_cons, List.not_mem_nil, or_false] at hf
    rcases hf with rfl | rfl | rfl | rfl <;> simp_all [chainGraph]
  · intro f
    unfold chainGraph
    split <;> exact ⟨rfl, rfl⟩
  · intro g c hr hc
    have h3 : g = 3 := by
      cases hr with
      | refl => rfl
      | step hc _ => cases hc
    subst h3
    cases hc
  · exact .step (c := 1) (by decide) (.step (c := 2) (by decide) .refl)

/-- The hypotheses of the recursive variant are met by the first function of
`recursiveGraph` (found unsafe there) and by a recursive safe pair. -/
example : ∃ S', ipRun [0, 1] (fun f => if f = 0 then { callees := [1] }
      else { callees := [0] }) = some S' ∧ (S' 0).isSafe = true ∧ (S' 1).isSafe = true :=
  ⟨_, rfl, rfl, rfl⟩

/-- A function with a reason of its own is never found safe, whatever the call graph. -/
theorem localReason_unsafe (funcs : List Func) (S S' : Sums)
    (hrun : ipRun funcs S = some S') (f : Func) (hf : f ∈ funcs) (hl : LocalReason (S f)) :
    (S' f).isSafe = false := by
  unfold ipRun at hrun
  cases hfold : funcs.foldlM (ipTop funcs) { sums := S, visited := [] } with
  | none => rw [hfold] at hrun; cases hrun
  | some t =>
    rw [hfold] at hrun
    cases hrun
    have := foldlM_inv
      (fun u : Trav => SameFacts S u.sums ∧ ∀ g ∈ u.visited, LocalReason (S g) →
        (u.sums g).writes = true) (ipTop funcs) funcs _ t
      (by
        rintro g u u' _ ⟨hu, hd⟩ hstep
        unfold ipTop at hstep
        split at hstep
        · cases hstep; exact ⟨hu, hd⟩
        · rename_i hgv
          have hfr := ipVisit_frame _ u u' g hstep
          refine ⟨hu.trans hfr.1.facts, fun x hx hlx => ?_⟩
          by_cases hxu : x ∈ u.visited
          · rw [hfr.1.keep x hxu (by intro e; subst e; exact hgv hxu)]
            exact hd x hxu hlx
          · exact ((ipVisit_white _ u u' g hu hgv hstep x hx hxu).2.2 hlx).2)
      ⟨.refl S, by simp⟩ hfold
    have hw := this.2 f (ipRun_visited hfold f hf) hl
    simp [FuncSummary.isSafe, hw]

/-- **C49, second part.** A function making an untrusted library call is never found safe. -/
theorem C49_untrusted_never_safe (funcs : List Func) (S S' : Sums)
    (hrun : ipRun funcs S = some S') (f : Func) (hf : f ∈ funcs) (a : Nat) (name : List Char)
    (hcall : (a, name) ∈ (S f).pltCalls)
    (hname : name ≠ "malloc".toList ∧ name ≠ "strlen".toList ∧ name ≠ "strcmp".toList ∧
      ¬ "_Zna".toList <+: name) : (S' f).isSafe = false := by
  refine localReason_unsafe funcs S S' hrun f hf
    (.inr (.inr (.inr (.inr ⟨a, name, hcall, ?_⟩))))
  rintro (h | h | h | h)
  · exact hname.1 h
  · exact hname.2.1 h
  · exact hname.2.2.1 h
  · exact hname.2.2.2 h

/-- `memcpy` in `chainGraph` is such a call; `_Znam` and `strlen` are trusted, `_Znwm` (the
single object `new`) is not. -/
example : ("memcpy".toList ≠ "malloc".toList ∧ ¬ "_Zna".toList <+: "memcpy".toList) ∧
    TrustedName "_Znam".toList ∧ TrustedName "strlen".toList ∧
    isSafePLTCall "_Znwm".toList = false := by
  refine ⟨⟨by decide, by decide⟩, ?_, ?_, by decide⟩
  · exact .inr (.inr (.inr (by decide)))
  · exact .inr (.inl rfl)

end Verif
