import Verif.Exception
import Verif.Props.InterProc

/-!
# C20: exception-free functions
-/

namespace Verif

/-! ## Specification -/

/-- The function may raise an exception by itself: it calls a library or jumps somewhere
unknown. -/
def MayThrow (s : FuncSummary) : Prop := s.pltCalls ≠ [] ∨ s.hasUnknownCf = true

/-- Reachability through functions classified as not writing (`g` included, `f` not). -/
inductive ReachQuiet (S : Sums) : Func → Func → Prop
  | refl {f} : ReachQuiet S f f
  | step {f c g} : c ∈ (S f).callees → (S c).writes = false → ReachQuiet S c g → ReachQuiet S f g

/-! ## The traversal -/

/-- `S'` differs from `S` at most in the exception flags. -/
def SameButEx (S S' : Sums) : Prop :=
  ∀ g, (S' g).callees = (S g).callees ∧ (S' g).pltCalls = (S g).pltCalls ∧
    (S' g).hasUnknownCf = (S g).hasUnknownCf ∧ (S' g).writes = (S g).writes

theorem SameButEx.refl (S : Sums) : SameButEx S S := fun _ => ⟨rfl, rfl, rfl, rfl⟩

theorem SameButEx.trans {S S' S'' : Sums} (h : SameButEx S S') (h' : SameButEx S' S'') :
    SameButEx S S'' := fun g =>
  ⟨(h' g).1.trans (h g).1, (h' g).2.1.trans (h g).2.1, (h' g).2.2.1.trans (h g).2.2.1,
    (h' g).2.2.2.trans (h g).2.2.2⟩

theorem SameButEx.set (S : Sums) (f : Func) (r : Bool) :
    SameButEx S (S.set f { S f with funcExceptionSafe := r }) := by
  intro g
  by_cases h : g = f
  · subst h; rw [Sums.set_same]; exact ⟨rfl, rfl, rfl, rfl⟩
  · rw [Sums.set_other _ _ h]; exact ⟨rfl, rfl, rfl, rfl⟩

/-- A flagged function makes no library call, has no unknown control flow, and each of its
callees is flagged or classified as writing. -/
def ExOk (S : Sums) (f : Func) : Prop :=
  (S f).funcExceptionSafe = true →
    ¬ MayThrow (S f) ∧ ∀ c ∈ (S f).callees, (S c).funcExceptionSafe = true ∨ (S c).writes = true

/-- Effect of a visit of `f` from `t`. -/
structure ExPost (t t' : Trav) (f : Func) : Prop where
  facts : SameButEx t.sums t'.sums
  mono : ∀ g ∈ t.visited, g ∈ t'.visited
  keep : ∀ g ∈ t.visited, g ≠ f → t'.sums g = t.sums g

theorem ExPost.refl (t : Trav) (f : Func) : ExPost t t f :=
  ⟨.refl _, fun _ h => h, fun _ _ _ => rfl⟩

/-- Finished functions satisfy `ExOk`; unfinished ones are in `stack`. -/
def ExInv (t : Trav) (stack : List Func) : Prop :=
  ∀ g ∈ t.visited, g ∉ stack → ExOk t.sums g

theorem ExOk.of_same {S S' : Sums} {f : Func} (h : ExOk S f) (he : SameButEx S S')
    (hf : (S' f).funcExceptionSafe = (S f).funcExceptionSafe)
    (hc : ∀ c ∈ (S f).callees, (S c).funcExceptionSafe = true → (S' c).funcExceptionSafe = true) :
    ExOk S' f := by
  intro hs
  rw [hf] at hs
  obtain ⟨h1, h2⟩ := h hs
  refine ⟨?_, ?_⟩
  · unfold MayThrow at *
    rw [(he f).2.1, (he f).2.2.1]
    exact h1
  · intro c hcm
    rw [(he f).1] at hcm
    rw [(he c).2.2.2]
    rcases h2 c hcm with h | h
    · exact .inl (hc c hcm h)
    · exact .inr h

theorem exVisit_post {funcs : List Func} : ∀ (n : Nat) (t t' : Trav) (f : Func) (r : Bool)
    (stack : List Func), (∀ g, g ∉ t.visited → (t.sums g).funcExceptionSafe = false) →
    (∀ g ∈ stack, g ∈ t.visited ∧ (t.sums g).funcExceptionSafe = false) →
    f ∉ t.visited → ExInv t stack → exVisit funcs n t f = some (t', r) →
    ExPost t t' f ∧ f ∈ t'.visited ∧ (t'.sums f).funcExceptionSafe = r ∧ ExInv t' stack ∧
      (∀ g, g ∉ t'.visited → (t'.sums g).funcExceptionSafe = false) := by
  intro n
  induction n with
  | zero => intro t t' f r stack _ _ _ _ h; cases h
  | succ n ih =>
    intro t t' f r stack hnew hstk hfv hinv h
    simp only [exVisit] at h
    -- storing the result at the end of the visit of `f`
    have finish : ∀ (u : Trav) (v : Bool), ExPost { t with visited := f :: t.visited } u f →
        f ∈ u.visited → (u.sums f).funcExceptionSafe = false →
        ExInv u (f :: stack) → (∀ g, g ∉ u.visited → (u.sums g).funcExceptionSafe = false) →
        (v = true → ¬ MayThrow (u.sums f) ∧
          ∀ c ∈ (u.sums f).callees, (u.sums c).funcExceptionSafe = true ∨ (u.sums c).writes = true) →
        ExPost t (exFinish u f v).1 f ∧ f ∈ (exFinish u f v).1.visited ∧
        ((exFinish u f v).1.sums f).funcExceptionSafe = v ∧ ExInv (exFinish u f v).1 stack ∧
        (∀ g, g ∉ (exFinish u f v).1.visited →
          ((exFinish u f v).1.sums g).funcExceptionSafe = false) := by
      intro u v hp hfu hff hu hun hv
      have hex : ∀ g, (u.sums g).funcExceptionSafe = true →
          ((u.sums.set f { u.sums f with funcExceptionSafe := v }) g).funcExceptionSafe = true := by
        intro g hg
        have : g ≠ f := by intro e; subst e; rw [hff] at hg; cases hg
        rw [Sums.set_other _ _ this]; exact hg
      refine ⟨⟨hp.facts.trans (.set _ _ _), fun g hg => hp.mono g (by simp [hg]), ?_⟩, hfu,
        ?_, ?_, ?_⟩
      · intro g hg hgf
        show u.sums.set f _ g = _
        rw [Sums.set_other _ _ hgf]
        exact hp.keep g (by simp [hg]) hgf
      · show (u.sums.set f _ f).funcExceptionSafe = v
        rw [Sums.set_same]
      · intro g hg hgs
        show ExOk (u.sums.set f { u.sums f with funcExceptionSafe := v }) g
        by_cases hgf : g = f
        · subst hgf
          intro hs
          rw [Sums.set_same] at hs ⊢
          obtain ⟨a, b⟩ := hv hs
          refine ⟨a, fun c hc => ?_⟩
          rcases b c hc with h | h
          · exact .inl (hex c h)
          · right
            rw [(SameButEx.set u.sums g v c).2.2.2]; exact h
        · exact (hu g hg (by
            intro hm
            rcases List.mem_cons.mp hm with e | hm
            · exact hgf e
            · exact hgs hm)).of_same (.set _ _ _) (by rw [Sums.set_other _ _ hgf])
              (fun c _ hc => hex c hc)
      · intro g hg
        show (u.sums.set f _ g).funcExceptionSafe = false
        have : g ≠ f := by intro e; subst e; exact hg hfu
        rw [Sums.set_other _ _ this]
        exact hun g hg
    have hinv0 : ExInv { t with visited := f :: t.visited } (f :: stack) := by
      intro g hg hgs
      rcases List.mem_cons.mp hg with e | hg
      · subst e; exact absurd List.mem_cons_self hgs
      · exact hinv g hg (fun hm => hgs (List.mem_cons_of_mem _ hm))
    have hnew0 : ∀ g, g ∉ f :: t.visited → (t.sums g).funcExceptionSafe = false :=
      fun g hg => hnew g (fun hm => hg (List.mem_cons_of_mem _ hm))
    split at h
    · cases h
      exact finish _ false (.refl _ _) List.mem_cons_self (hnew f hfv) hinv0 hnew0
        (by intro h; cases h)
    split at h
    · cases h
      exact finish _ false (.refl _ _) List.mem_cons_self (hnew f hfv) hinv0 hnew0
        (by intro h; cases h)
    · rename_i hplt hunk
      split at h
      · cases h
      · rename_i u ret hfold
        cases h
        have key := foldlM_prefix
          (fun done (acc : Trav × Bool) => ExPost { t with visited := f :: t.visited } acc.1 f ∧
            f ∈ acc.1.visited ∧ (acc.1.sums f) = (t.sums f) ∧ ExInv acc.1 (f :: stack) ∧
            (∀ g, g ∉ acc.1.visited → (acc.1.sums g).funcExceptionSafe = false) ∧
            (∀ g ∈ stack, g ∈ acc.1.visited ∧ (acc.1.sums g).funcExceptionSafe = false) ∧
            (acc.2 = true → ∀ c ∈ done,
              (acc.1.sums c).funcExceptionSafe = true ∨ (acc.1.sums c).writes = true) ∧
            (∀ c ∈ done, c ∈ acc.1.visited))
          (exCallee (exVisit funcs n) funcs) (t.sums f).callees []
          ({ t with visited := f :: t.visited }, true) (u, r)
          (by
            rintro done c ⟨a, b⟩ ⟨a', b'⟩ _ ⟨p1, p2, p3, p4, p5, p6, p7, p8⟩ hstep
            simp only at p1 p2 p3 p4 p5 p6 p7 p8 ⊢
            unfold exCallee at hstep
            simp only at hstep
            split at hstep
            · rename_i hcv
              cases hstep
              refine ⟨p1, p2, p3, p4, p5, p6, ?_, ?_⟩
              · intro hb d hd
                rw [Bool.and_eq_true] at hb
                rcases List.mem_append.mp hd with hd | hd
                · exact p7 hb.1 d hd
                · have : d = c := by simpa using hd
                  subst this; exact .inr hb.2
              · intro d hd
                rcases List.mem_append.mp hd with hd | hd
                · exact p8 d hd
                · have : d = c := by simpa using hd
                  subst this; exact hcv
            · rename_i hcv
              split at hstep
              · split at hstep
                · cases hstep
                · rename_i v r' hvis
                  cases hstep
                  have hfa : (a.sums f).funcExceptionSafe = false := by rw [p3]; exact hnew f hfv
                  have hstk' : ∀ g ∈ f :: stack, g ∈ a.visited ∧
                      (a.sums g).funcExceptionSafe = false := by
                    intro g hg
                    rcases List.mem_cons.mp hg with e | hg
                    · subst e; exact ⟨p2, hfa⟩
                    · exact p6 g hg
                  obtain ⟨q1, q2, q3, q4, q5⟩ := ih a a' c r' (f :: stack) p5 hstk' hcv p4 hvis
                  have hkeep : ∀ g ∈ a.visited, a'.sums g = a.sums g := fun g hg =>
                    q1.keep g hg (by intro e; subst e; exact hcv hg)
                  refine ⟨⟨p1.facts.trans q1.facts, fun g hg => q1.mono g (p1.mono g hg), ?_⟩,
                    q1.mono f p2, (hkeep f p2).trans p3, q4, q5, ?_, ?_, ?_⟩
                  · intro g hg hgf
                    exact (hkeep g (p1.mono g hg)).trans (p1.keep g hg hgf)
                  · intro g hg
                    have := p6 g hg
                    exact ⟨q1.mono g this.1, by rw [hkeep g this.1]; exact this.2⟩
                  · intro hb d hd
                    rw [Bool.and_eq_true] at hb
                    rcases List.mem_append.mp hd with hd | hd
                    · rw [hkeep d (p8 d hd)]; exact p7 hb.1 d hd
                    · have : d = c := by simpa using hd
                      subst this
                      exact .inl (by rw [q3]; exact hb.2)
                  · intro d hd
                    rcases List.mem_append.mp hd with hd | hd
                    · exact q1.mono d (p8 d hd)
                    · have : d = c := by simpa using hd
                      subst this; exact q2
              · cases hstep)
          ⟨.refl _ _, List.mem_cons_self, rfl, hinv0, hnew0,
            fun g hg => ⟨List.mem_cons_of_mem _ (hstk g hg).1, (hstk g hg).2⟩, by simp, by simp⟩
          hfold
        obtain ⟨k1, k2, k3, k4, k5, _, k7, _⟩ := key
        simp only at k1 k2 k3 k4 k5 k7
        refine finish u r k1 k2 (by rw [k3]; exact hnew f hfv) k4 k5 ?_
        intro hr
        refine ⟨?_, fun c hc => ?_⟩
        · rw [k3]
          rintro (h | h)
          · exact hplt (by simpa using h)
          · exact hunk h
        · rw [k3] at hc
          exact k7 hr c (by simpa using hc)

/-- After the pass, every function satisfies `ExOk`. -/
theorem exRun_ok {funcs : List Func} {addr : Func → Nat} {S S' : Sums} {free : List Nat}
    (hfresh : ∀ g, (S g).funcExceptionSafe = false) (h : exRun funcs addr S = some (S', free)) :
    SameButEx S S' ∧ (∀ f ∈ funcs, ExOk S' f) ∧
      free = (funcs.filter (fun f => (S' f).funcExceptionSafe)).map addr := by
  unfold exRun at h
  cases hf : funcs.foldlM (exTop funcs) { sums := S, visited := [] } with
  | none => rw [hf] at h; cases h
  | some t =>
    rw [hf] at h
    cases h
    have key := foldlM_prefix
      (fun done (u : Trav) => SameButEx S u.sums ∧ ExInv u [] ∧
        (∀ g, g ∉ u.visited → (u.sums g).funcExceptionSafe = false) ∧ ∀ f ∈ done, f ∈ u.visited)
      (exTop funcs) funcs [] { sums := S, visited := [] } t
      (by
        rintro done g u u' _ ⟨p1, p2, p3, p4⟩ hstep
        unfold exTop at hstep
        split at hstep
        · rename_i hgv
          cases hstep
          refine ⟨p1, p2, p3, fun x hx => ?_⟩
          rcases List.mem_append.mp hx with hx | hx
          · exact p4 x hx
          · have : x = g := by simpa using hx
            subst this; exact hgv
        · rename_i hgv
          cases hv : exVisit funcs (funcs.length + 1) u g with
          | none => rw [hv] at hstep; cases hstep
          | some p =>
            obtain ⟨v, r⟩ := p
            rw [hv] at hstep
            cases hstep
            obtain ⟨q1, q2, _, q4, q5⟩ := exVisit_post _ u v g r [] p3 (by simp) hgv p2 hv
            refine ⟨p1.trans q1.facts, q4, q5, fun x hx => ?_⟩
            rcases List.mem_append.mp hx with hx | hx
            · exact q1.mono x (p4 x hx)
            · have : x = g := by simpa using hx
              subst this; exact q2)
      ⟨SameButEx.refl S, fun g hg => absurd hg List.not_mem_nil, fun g _ => hfresh g, by simp⟩ hf
    obtain ⟨k1, k2, _, k4⟩ := key
    exact ⟨k1, fun f hf => k2 f (k4 f (by simpa using hf)) (by simp), rfl⟩

/-- **C20, what holds.** A function flagged exception-free makes no library call and has no
unknown control flow itself, and reaches no such function through functions classified as
not writing.  Missing: paths through writing functions, where the claim is false
(`C20_refuted`). -/
theorem C20_exception_free_partial (funcs : List Func) (addr : Func → Nat) (S S' : Sums)
    (free : List Nat) (hfresh : ∀ g, (S g).funcExceptionSafe = false)
    (hclosed : Closed S funcs) (h : exRun funcs addr S = some (S', free))
    (f : Func) (hf : f ∈ funcs) (hs : (S' f).funcExceptionSafe = true) :
    ∀ g, ReachQuiet S f g → ¬ MayThrow (S g) := by
  obtain ⟨h1, h2, _⟩ := exRun_ok hfresh h
  intro g hr
  induction hr with
  | @refl f =>
    have := (h2 f hf hs).1
    unfold MayThrow at *
    rw [(h1 f).2.1, (h1 f).2.2.1] at this
    exact this
  | @step f c g hc hw _ ih =>
    have := (h2 f hf hs).2 c (by rw [(h1 f).1]; exact hc)
    rcases this with h | h
    · exact ih (hclosed f hf c hc) h
    · rw [(h1 c).2.2.2, hw] at h; cases h

/-- The set of exception-free addresses is that of the flagged functions. -/
theorem C20_addresses (funcs : List Func) (addr : Func → Nat) (S S' : Sums) (free : List Nat)
    (hfresh : ∀ g, (S g).funcExceptionSafe = false)
    (h : exRun funcs addr S = some (S', free)) (a : Nat) :
    a ∈ free ↔ ∃ f ∈ funcs, (S' f).funcExceptionSafe = true ∧ addr f = a := by
  obtain ⟨_, _, rfl⟩ := exRun_ok hfresh h
  simp only [List.mem_map, List.mem_filter]
  constructor
  · rintro ⟨f, ⟨h1, h2⟩, h3⟩; exact ⟨f, h1, h2, h3⟩
  · rintro ⟨f, h1, h2, h3⟩; exact ⟨f, ⟨h1, h2⟩, h3⟩

/-- Function 0 calls function 1, which calls `throwing`. -/
def throwGraph : Sums
  | 0 => { callees := [1] }
  | 1 => { pltCalls := [(4, "throwing".toList)] }
  | _ => {}

/-- **C20 is false.** Function 0 is declared exception-free, although it calls function 1
which makes an untrusted library call: function 1 was visited first and is judged by its
write flag.  The summaries are those computed by the preceding pass. -/
theorem C20_refuted : ∃ (funcs : List Func) (addr : Func → Nat) (S0 S S' : Sums)
    (free : List Nat) (f g : Func),
    ipRun funcs S0 = some S ∧ exRun funcs addr S = some (S', free) ∧ f ∈ funcs ∧
      addr f ∈ free ∧ Reach S f g ∧ MayThrow (S g) := by
  obtain ⟨S, h⟩ : ∃ S, ipRun [1, 0] throwGraph = some S := ⟨_, rfl⟩
  obtain ⟨p, h'⟩ : ∃ p, exRun [1, 0] id S = some p := by cases h; exact ⟨_, rfl⟩
  refine ⟨[1, 0], id, throwGraph, S, p.1, p.2, 0, 1, h, h', by decide, ?_, ?_, ?_⟩
  · cases h; cases h'; decide
  · cases h; exact .step (c := 1) (by decide) .refl
  · cases h; exact .inl (by decide)

/-- The hypotheses of the partial theorem are met: 0 calls 1, which is quiet. -/
example : ∃ S' free, exRun [0, 1] id (fun f => if f = 0 then { callees := [1] } else {}) =
    some (S', free) ∧ (S' 0).funcExceptionSafe = true ∧ free = [0, 1] :=
  ⟨_, _, rfl, rfl, rfl⟩

/-! ## Marked call sites -/

/-- The edge by which a block transfers control to another function, as far as marking is
concerned. -/
def IsTransfer (e : Edge) : Prop :=
  (e.type = .call ∧ e.sink = false) ∨
    (e.interproc = true ∧ (e.type = .direct ∨ e.type = .condTaken))

theorem markedCallee_eq (co : CodeObj) (l : List Edge) :
    (∃ pre e post, l = pre ++ e :: post ∧ IsTransfer e ∧ (∀ x ∈ pre, ¬ IsTransfer x) ∧
      markedCallee co l = co.start e.trg) ∨
    ((∀ x ∈ l, ¬ IsTransfer x) ∧ markedCallee co l = 0) := by
  induction l with
  | nil => exact .inr ⟨by simp, rfl⟩
  | cons e l ih =>
    by_cases he : IsTransfer e
    · refine .inl ⟨[], e, l, rfl, he, by simp, ?_⟩
      unfold markedCallee
      rcases he with ⟨h1, h2⟩ | ⟨h1, h2⟩
      · simp [h1, h2]
      · split
        · rfl
        · rcases h2 with h2 | h2 <;> simp [h1, h2]
    · have hm : markedCallee co (e :: l) = markedCallee co l := by
        rw [markedCallee]
        rw [if_neg, if_neg]
        · intro h
          simp only [Bool.and_eq_true, Bool.or_eq_true, beq_iff_eq] at h
          exact he (.inr h)
        · intro h
          simp only [Bool.and_eq_true, beq_iff_eq, Bool.not_eq_true'] at h
          exact he (.inl h)
      rcases ih with ⟨pre, e', post, h1, h2, h3, h4⟩ | ⟨h1, h2⟩
      · exact .inl ⟨e :: pre, e', post, by rw [h1]; rfl, h2, by
          intro x hx
          rcases List.mem_cons.mp hx with rfl | hx
          · exact he
          · exact h3 x hx, by rw [hm, h4]⟩
      · exact .inr ⟨by
          intro x hx
          rcases List.mem_cons.mp hx with rfl | hx
          · exact he
          · exact h1 x hx, by rw [hm, h2]⟩

/-- **C20, marking.** If no exception-free function is at address zero, a block is marked
exactly when its first transfer edge leads to an exception-free function. -/
theorem C20_marked_blocks (co : CodeObj) (free : List Nat) (hz : 0 ∉ free) (f : Func) (b : Blk)
    (hb : b ∈ co.blocks f) :
    b ∈ markExceptionSafeCalls co free f ↔
      ∃ pre e post, co.targets b = pre ++ e :: post ∧ IsTransfer e ∧
        (∀ x ∈ pre, ¬ IsTransfer x) ∧ co.start e.trg ∈ free := by
  unfold markExceptionSafeCalls
  rw [List.mem_filter]
  simp only [hb, true_and, List.contains_iff_mem]
  rcases markedCallee_eq co (co.targets b) with ⟨pre, e, post, h1, h2, h3, h4⟩ | ⟨h1, h2⟩
  · rw [h4]
    constructor
    · exact fun h => ⟨pre, e, post, h1, h2, h3, h⟩
    · rintro ⟨pre', e', post', h1', h2', h3', h4'⟩
      have : e' = e := by
        rw [h1] at h1'
        clear h1 h4 h4'
        induction pre generalizing pre' with
        | nil =>
          cases pre' with
          | nil => simp only [List.nil_append, List.cons.injEq] at h1'; exact h1'.1.symm
          | cons x pre' =>
            simp only [List.nil_append, List.cons_append, List.cons.injEq] at h1'
            exact absurd (h1'.1 ▸ h2) (h3' x (by simp))
        | cons y pre ih =>
          cases pre' with
          | nil =>
            simp only [List.nil_append, List.cons_append, List.cons.injEq] at h1'
            exact absurd (h1'.1 ▸ h2') (h3 y (by simp))
          | cons x pre' =>
            simp only [List.cons_append, List.cons.injEq] at h1'
            exact ih (fun z hz => h3 z (List.mem_cons_of_mem _ hz)) pre' h1'.2
              (fun z hz => h3' z (List.mem_cons_of_mem _ hz))
      subst this
      exact h4'
  · rw [h2]
    constructor
    · exact fun h => absurd h hz
    · rintro ⟨pre, e, post, h, he, _, _⟩
      exact absurd he (h1 e (by rw [h]; simp))

/-- Block 0 calls the function at block 2, block 1 only falls through. -/
def sampleMark : CodeObj where
  funcs := [0]
  addr := id
  entry := id
  blocks := fun _ => [0, 1]
  exitBlocks := fun _ => []
  targets := fun b => if b = 0 then [{ id := 0, src := 0, trg := 1, type := .callFt },
    { id := 1, src := 0, trg := 2, type := .call, interproc := true }] else []
  start := id
  last := id
  funcsAt := fun _ => []
  linkage := fun _ => none

example : markExceptionSafeCalls sampleMark [2] 0 = [0] := by decide

end Verif
