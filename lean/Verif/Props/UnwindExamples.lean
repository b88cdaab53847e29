import Verif.Props.Unwind
import Verif.Props.WholeExamples

/-!
# C86: example programs and attacks
-/

namespace Verif

/-! ## Checks follow only the blocks that have one -/

/-- The blocks with a check at their end. -/
def Plan.checked : Plan → List Blk
  | .skipped => []
  | .lowered L => L.pops.map Prod.fst
  | .regFrame _ checks => checks
  | .full _ checks => checks
  | .fastPath _ checks => checks.map fun x => x.1.blk
  | .entryExit _ checks => checks.map fun x => x.1.blk

/-- `b` is the last block before a check. -/
def CheckAfter (b : Blk) : List Ev → Prop
  | [] => False
  | [_] => False
  | x :: y :: t => (x = .block b ∧ y = .check) ∨ CheckAfter b (y :: t)

theorem checkAfter_mid {b : Blk} (t t' : List Ev) : CheckAfter b (t ++ .block b :: .check :: t') := by
  induction t with
  | nil => exact .inl ⟨rfl, rfl⟩
  | cons x t ih =>
    cases t with
    | nil => exact .inr ih
    | cons y t => exact .inr ih

/-- A check comes after `b` in the first or in the second part, or between them. -/
theorem checkAfter_append {b : Blk} {t t' : List Ev} (h : CheckAfter b (t ++ t')) :
    CheckAfter b t ∨ CheckAfter b t' ∨ (t.getLast? = some (.block b) ∧ t'.head? = some .check) := by
  induction t with
  | nil => exact .inr (.inl h)
  | cons x t ih =>
    cases t with
    | nil =>
      cases t' with
      | nil => exact .inl h
      | cons y t' =>
        rcases h with ⟨h1, h2⟩ | h
        · exact .inr (.inr ⟨by simp [h1], by simp [h2]⟩)
        · exact .inr (.inl h)
    | cons y t =>
      rcases h with h | h
      · exact .inl (.inl h)
      · rcases ih h with h | h | ⟨h1, h2⟩
        · exact .inl (.inr h)
        · exact .inr (.inl h)
        · exact .inr (.inr ⟨by rw [List.getLast?_cons_cons]; exact h1, h2⟩)

theorem checkAfter_checks {b c : Blk} {n : Nat} (h : CheckAfter b (.block c :: List.replicate n .check)) :
    b = c ∧ n ≠ 0 := by
  cases n with
  | zero => exact h.elim
  | succ n =>
    rcases h with ⟨h, _⟩ | h
    · exact ⟨by cases h; rfl, by simp⟩
    · exfalso
      induction n with
      | zero => exact h
      | succ n ih =>
        rcases h with ⟨h, _⟩ | h
        · cases h
        · exact ih h

theorem checkAfter_pushes {b : Blk} {n : Nat} {t : List Ev} (h : CheckAfter b (List.replicate n .push ++ t)) :
    CheckAfter b t := by
  induction n with
  | zero => exact h
  | succ n ih =>
    rcases checkAfter_append (t := [.push]) (t' := List.replicate n .push ++ t) h with h | h | h
    · exact h.elim
    · exact ih h
    · cases h.1

theorem point_checked {ps xs : List Blk} {b c : Blk} {es : List Edge}
    (h : CheckAfter b (pointTrace ps xs c es)) : b ∈ xs := by
  have h := checkAfter_pushes h
  generalize visits c es = bs at h
  induction bs with
  | nil => exact h.elim
  | cons x bs ih =>
    rw [List.flatMap_cons] at h
    rcases checkAfter_append h with h | h | ⟨_, h⟩
    · obtain ⟨rfl, h⟩ := checkAfter_checks h
      exact List.count_pos_iff.mp (Nat.pos_of_ne_zero h)
    · exact ih h
    · cases bs <;> cases h

theorem traceFrom_head {d : Edge → Bool → Blk × Bool} {E : List Edge} {P : List (Blk × Bool)}
    {X : List Blk} {n : Blk × Bool} {es : List Edge} :
    (traceFrom d E P X n es).head? ≠ some .check := by
  have : ∀ t, (nodeEv P X n ++ t).head? ≠ some .check := by
    intro t
    unfold nodeEv
    split <;> simp
  cases es with
  | nil => have := this []; rwa [List.append_nil] at this
  | cons e es => rw [traceFrom, List.append_assoc]; exact this _

theorem node_checked {P : List (Blk × Bool)} {X : List Blk} {n : Blk × Bool} {b : Blk}
    (h : CheckAfter b (nodeEv P X n)) : b ∈ X := by
  have h' : CheckAfter b (.block n.1 :: List.replicate (if n.2 = true ∧ n.1 ∈ X then 1 else 0) .check) := by
    refine checkAfter_pushes (n := if n ∈ P then 1 else 0) ?_
    have e : List.replicate (if n ∈ P then 1 else 0) Ev.push ++
        .block n.1 :: List.replicate (if n.2 = true ∧ n.1 ∈ X then 1 else 0) .check = nodeEv P X n := by
      unfold nodeEv
      by_cases h1 : n ∈ P <;> by_cases h2 : n.2 = true ∧ n.1 ∈ X <;>
        simp only [h1, h2, if_true, if_false, and_self] <;> simp
    rw [e]
    exact h
  obtain ⟨rfl, hne⟩ := checkAfter_checks h'
  split at hne
  · rename_i hc; exact hc.2
  · exact absurd rfl hne

theorem low_checked {d : Edge → Bool → Blk × Bool} {E : List Edge} {P : List (Blk × Bool)}
    {X : List Blk} {n : Blk × Bool} {b : Blk} {es : List Edge}
    (h : CheckAfter b (traceFrom d E P X n es)) : b ∈ X := by
  induction es generalizing n with
  | nil => exact node_checked h
  | cons e es ih =>
    rw [traceFrom, List.append_assoc] at h
    rcases checkAfter_append h with h | h | ⟨_, h⟩
    · exact node_checked h
    · unfold edgeEv at h
      split at h
      · exact ih (checkAfter_pushes (n := 1) h)
      · exact ih h
    · exfalso
      unfold edgeEv at h
      split at h
      · cases h
      · exact traceFrom_head h

theorem fast_checked {q c b : Blk} {xs : List Blk} {es : List Edge}
    (h : CheckAfter b (fpTrace q xs c es)) : b ∈ xs := by
  have node : ∀ c, CheckAfter b (fpTrace.fpNode q xs c) → b ∈ xs := by
    intro c h
    have h' : CheckAfter b (.block c :: List.replicate (xs.count c) .check) := by
      unfold fpTrace.fpNode at h
      split at h
      · exact checkAfter_pushes (n := 1) h
      · exact h
    obtain ⟨rfl, h⟩ := checkAfter_checks h'
    exact List.count_pos_iff.mp (Nat.pos_of_ne_zero h)
  have head : ∀ c t, (fpTrace.fpNode q xs c ++ t).head? ≠ some .check := by
    intro c t
    unfold fpTrace.fpNode
    split <;> simp
  induction es generalizing c with
  | nil => exact node c h
  | cons e es ih =>
    rw [fpTrace] at h
    rcases checkAfter_append h with h | h | ⟨_, h⟩
    · exact node c h
    · exact ih h
    · exfalso
      cases es with
      | nil => rw [fpTrace, ← List.append_nil (fpTrace.fpNode _ _ _)] at h; exact head _ _ h
      | cons x es => rw [fpTrace] at h; exact head _ _ h

/-- Only blocks with a check are followed by one. -/
theorem Plan.checkAfter {p : Plan} {b c : Blk} {es : List Edge} (h : CheckAfter b (p.trace c es)) :
    b ∈ p.checked := by
  cases p with
  | skipped =>
    exfalso
    change CheckAfter b ((visits c es).map Ev.block) at h
    generalize visits c es = bs at h
    induction bs with
    | nil => exact h
    | cons x bs ih =>
      cases bs with
      | nil => exact h
      | cons y bs =>
        rcases h with ⟨_, h⟩ | h
        · cases h
        · exact ih h
  | lowered L => exact low_checked h
  | regFrame a x => exact point_checked h
  | full a x => exact point_checked h
  | fastPath a x => exact fast_checked h
  | entryExit a x => exact point_checked h

namespace Small
variable {p : Small}

/-! ## Executions with exceptions -/

/-- The program with exceptions in action. -/
abbrev excSem (p : Small) : ProgSem := semOn Flow p.code p.plan p.info (inRegOf {} p.sums) (staysOf p.bfunc)

/-- Does the walk exist, and where does it end? -/
def flowEnd (p : Small) : Blk → List Edge → Option Blk
  | b, [] => some b
  | b, e :: es => if e ∈ p.edges ∧ e.src = b ∧ Flow e then p.flowEnd e.trg es else none

theorem flowEnd_walk {b b' : Blk} {es : List Edge} (h : p.flowEnd b es = some b') :
    Walk p.code.targets Flow b es b' := by
  induction es generalizing b with
  | nil => cases h; exact .nil _
  | cons e es ih =>
    rw [flowEnd] at h
    split at h
    · rename_i hc
      exact .cons (mem_targets.mpr ⟨hc.1, hc.2.1⟩) hc.2.2 (ih h)
    · cases h

theorem startsX {f : Func} {t : List Ev} {b' : Blk} (es : List Edge) (hf : f ∈ p.code.funcs)
    (hw : p.flowEnd (p.code.entry f) es = some b') (ht : t <+: p.trace f es) :
    p.excSem.trace f t := by
  obtain ⟨t', ht⟩ := ht
  exact ⟨hf, t', es, b', flowEnd_walk hw, ht⟩

theorem endsX {f : Func} {t : List Ev} {b : Blk} (es : List Edge) (hf : f ∈ p.code.funcs)
    (hw : p.flowEnd (p.code.entry f) es = some b) (hx : b ∈ p.exitsOf f)
    (hr : isNonreturningCall (p.code.targets b) = false) (ht : t = p.trace f es) :
    p.excSem.complete f t := ⟨b, hf, hx, hr, es, flowEnd_walk hw, ht⟩

/-- A direct call at the end of a block without a check. -/
theorem callsX {f g : Func} {t : List Ev} {b : Blk} (e : Edge) (hc : b ∉ (p.plan f).checked)
    (hst : p.excSem.trace f (t ++ [.block b])) (hg : g ∈ p.code.funcs)
    (he : e ∈ p.code.targets b) (hd : DirectCall p.code e g) : p.excSem.calls f (t ++ [.block b]) g := by
  refine ⟨hg, .inl ⟨b, ⟨hst, ⟨t, .inl rfl⟩, ?_⟩, e, he, .inl hd⟩⟩
  rintro ⟨_, t', es, b', _, h⟩
  refine hc (Plan.checkAfter (c := p.code.entry f) (es := es) ?_)
  rw [← h]
  have := checkAfter_mid (b := b) t t'
  simpa using this

theorem dangerX {f : Func} {t : List Ev} {b : Blk} (hst : p.excSem.trace f (t ++ [.block b]))
    (hb : b ∈ p.danger) : p.excSem.danger f (t ++ [.block b]) := by
  refine .inl ⟨hst, t, b, rfl, { addr := 4096 + 16 * b, writesMemory := true, outs := [.unknown] }, ?_, ?_⟩
  · simp [info, hb]
  · exact ⟨rfl, rfl, .unknown, by simp, .inl rfl⟩

/-! ## The conditions -/

theorem Ok.handlers (h : p.Ok) (f : Func) (hf : f ∈ p.code.funcs) : HandlersOk p.code (p.bfunc f) f where
  closed b hb e he hfo := by
    obtain ⟨h1, h2⟩ := mem_targets.mp he
    exact h.closed f hf e h1 (by rw [h2]; exact hb) hfo
  exits b hb hr e he hfo := by
    obtain ⟨h1, h2⟩ := mem_targets.mp he
    obtain ⟨e', k1, k2, k3⟩ := h.handler f hf e h1 (by rw [h2]; exact hb) hfo
    exact exit_noCall (h.func f hf) hb hr e' (mem_targets.mpr ⟨k1, k2.trans h2⟩) k3
  out b _ e he hfo := mem_out.mpr ⟨mem_targets.mp he, hfo⟩

/-- The blocks in `D` are those of the handlers. -/
theorem cleanupOnly {f : Func} (D : List Blk)
    (h1 : ∀ e ∈ p.edges, e.src ∈ p.blocksOf f → Flow e → e.type = .catch →
      e.src ∈ (p.sums f).unsafeBlocks ∧ e.trg ∈ D)
    (h2 : ∀ e ∈ p.edges, Flow e → e.src ∈ D → e.trg ∈ D)
    (h3 : ∀ b ∈ D, ¬ (b ∈ p.exitsOf f ∧ isNonreturningCall (p.code.targets b) = false))
    (h4 : p.code.entry f ∉ D) (h5 : ∀ e ∈ p.edges, Follow e → e.trg ∈ D → e.src ∈ D) :
    CleanupOnly p.code p.sums f := by
  intro b hb e he hf hc
  obtain ⟨k1, rfl⟩ := mem_targets.mp he
  obtain ⟨k2, k3⟩ := h1 e k1 hb hf hc
  refine ⟨k2, fun es c hw => ?_⟩
  have hcD : c ∈ D := by
    clear he hb hc hf k1 k2
    generalize e.trg = x at k3 hw
    induction hw with
    | nil => exact k3
    | cons he hf _ ih =>
      obtain ⟨m1, rfl⟩ := mem_targets.mp he
      exact ih (h2 _ m1 hf k3)
  refine ⟨h3 c hcD, fun es' hw' => h4 ?_⟩
  clear hw
  generalize p.code.entry f = x at hw' h4 ⊢
  induction hw' with
  | nil => exact hcD
  | cons he hf _ ih =>
    obtain ⟨m1, rfl⟩ := mem_targets.mp he
    exact h5 _ m1 hf (ih hcD fun h => h4 (h5 _ m1 hf h))

end Small

/-! ## A program with handlers -/

/-- `f0` returns at once or calls `f1`; if this throws, it cleans up and resumes (`f3`).  `f1` calls
`f2`, which writes; if this throws, `f1` calls it once more. -/
def tryProg : Small where
  blocks := [[0, 1, 2, 3, 4], [5, 6, 7, 8], [9], [10]]
  exits := [[1, 3, 4], [8], [9], [10]]
  edges :=
    [{ id := 0, src := 0, trg := 1, type := .condTaken },
     { id := 1, src := 0, trg := 2, type := .condNotTaken },
     { id := 2, src := 2, trg := 5, type := .call, interproc := true },
     { id := 3, src := 2, trg := 3, type := .callFt },
     { id := 4, src := 2, trg := 4, type := .catch },
     retEdge 5 1, retEdge 6 3,
     { id := 7, src := 4, trg := 10, type := .call, interproc := true },
     { id := 8, src := 5, trg := 9, type := .call, interproc := true },
     { id := 9, src := 5, trg := 6, type := .callFt },
     { id := 10, src := 5, trg := 7, type := .catch },
     { id := 11, src := 7, trg := 6, type := .direct },
     { id := 12, src := 6, trg := 9, type := .call, interproc := true },
     { id := 13, src := 6, trg := 8, type := .callFt },
     retEdge 14 8, retEdge 15 9,
     { id := 16, src := 10, trg := 0, type := .call, sink := true, interproc := true }]
  danger := [9]

theorem tryProg_ok : tryProg.Ok where
  sums := by decide +kernel
  plans := by decide +kernel
  addr := by decide +kernel
  oneCall := by decide +kernel
  entry := by decide +kernel
  closed := by decide +kernel
  ret := by decide +kernel
  exits := by decide +kernel
  handler := by decide +kernel
  nodup := by decide +kernel
  after := by decide +kernel
  resolved := by decide +kernel
  exitIn := by decide +kernel
  nodupEdges := by decide +kernel
  lone := by decide +kernel
  callOut := by decide +kernel

theorem tryProg_calls : ∀ f ∈ tryProg.code.funcs, NoCallAtCheck {} tryProg.code (tryProg.bfunc f) := by
  have h : ∀ f ∈ tryProg.code.funcs, ∀ r ∈ checkFastPath false (tryProg.bfunc f).cfg,
      ∀ e ∈ tryProg.edges, e.src ∈ r.2 → e.type ≠ .call := by decide +kernel
  exact fun f hf => Small.noCallAtCheck (h f hf)

theorem tryProg_tails : ∀ f ∈ tryProg.code.funcs, TailsOk tryProg.code tryProg.sums f := by
  have h : ∀ f ∈ tryProg.code.funcs, ∀ e ∈ tryProg.edges, e.src ∈ tryProg.exitsOf f →
      e.interproc = true → e.type ≠ .call → e.type ≠ .ret →
      e.sink = false ∧ ∃ g ∈ tryProg.code.funcs, calleeAt tryProg.code e.trg = some g ∧
        ((tryProg.sums g).writes = true → (tryProg.sums f).writes = true) := by decide +kernel
  exact fun f hf => Small.tailsOk (h f hf)

theorem tryProg_lowered : ∀ f ∈ tryProg.code.funcs,
    f = 0 ∨ doLowering {} tryProg.code f (some (tryProg.sums f)) = some none := by
  have h : ∀ f ∈ tryProg.code.funcs, f = 0 ∨
      (match doLowering {} tryProg.code f (some (tryProg.sums f)) with
        | some none => true | _ => false) = true := by decide +kernel
  intro f hf
  refine (h f hf).imp id fun h => ?_
  split at h
  · assumption
  · cases h

theorem tryProg_cleanup : ∀ f ∈ tryProg.code.funcs, ∀ L,
    doLowering {} tryProg.code f (some (tryProg.sums f)) = some (some L) →
      CleanupOnly tryProg.code tryProg.sums f := by
  intro f hf L hl
  rcases tryProg_lowered f hf with rfl | h
  · exact Small.cleanupOnly [4] (by decide +kernel) (by decide +kernel) (by decide +kernel)
      (by decide +kernel) (by decide +kernel)
  · rw [h] at hl; cases hl

theorem tryProg_protected (f : Func) : UProtected tryProg.excSem f :=
  C86_protected_partial tryProg_ok.built tryProg_calls
    (tryProg_ok.built.covered (tryProg_ok.noRecursion (by decide +kernel))) tryProg_tails
    (Small.allIn rfl rfl rfl) tryProg_ok.handlers tryProg_cleanup f

/-- Example for `C86_protected_partial`: what the functions execute when exceptions are thrown. -/
example : (match tryProg.plan 0 with | .lowered _ => true | _ => false) = true ∧
    tryProg.trace 0 [tryProg.edges[1], tryProg.edges[4]] = [.block 0, .push, .block 2, .block 4] ∧
    tryProg.trace 1 [tryProg.edges[10], tryProg.edges[11], tryProg.edges[13]] =
      [.push, .block 5, .block 7, .block 6, .block 8, .check] := by decide +kernel

/-! ## Unwinding past an overwritten return address -/

section
variable (v : W)

theorem tryProg_reg : ¬ tryProg.excSem.inReg 1 ∧ ¬ tryProg.excSem.inReg 2 := by
  change ¬ (useRegFrame {} (some (tryProg.sums 1)) = true) ∧ ¬ (useRegFrame {} (some (tryProg.sums 2)) = true)
  decide +kernel

/-- `f1` calls `f2`. -/
theorem tryProg_call : URun tryProg.excSem (.run [⟨1, [], 7, 7, none⟩] [])
    (.run [⟨2, [.push], 8, 8, none⟩, ⟨1, [.push, .block 5], 7, 7, none⟩] [8, 7]) := by
  have e1 : tryProg.excSem.trace 1 ([] ++ [.push]) :=
    Small.startsX (b' := 5) [] (by decide) (by decide) (by decide +kernel)
  have e2 : tryProg.excSem.trace 1 ([.push] ++ [.block 5]) :=
    Small.startsX (b' := 5) [] (by decide) (by decide) (by decide +kernel)
  have d1 : tryProg.excSem.trace 2 ([] ++ [.push]) :=
    Small.startsX (b' := 9) [] (by decide) (by decide) (by decide +kernel)
  have r0 : URun tryProg.excSem (.run [⟨1, [], 7, 7, none⟩] []) _ := .refl _
  have r1 := r0.step (.step (.push (a := ⟨1, [], 7, 7, none⟩) e1 tryProg_reg.1))
  have r2 := r1.step (.step (.block (a := ⟨1, [.push], 7, 7, none⟩) e2))
  have r3 := r2.step (.step (.call (a := ⟨1, [.push, .block 5], 7, 7, none⟩) (g := 2) 8
    (Small.callsX (t := [.push]) tryProg.edges[8] (by decide +kernel) e2 (by decide) (by decide)
      (Small.direct (by decide) (by decide) (by decide +kernel)))))
  exact r3.step (.step (.push (a := ⟨2, [], 8, 8, none⟩) d1 tryProg_reg.2))

theorem tryProg_write : tryProg.excSem.trace 2 ([.push] ++ [.block 9]) :=
  Small.startsX (b' := 9) [] (by decide) (by decide) (by decide +kernel)

/-- `f2` overwrites the return address of `f1`. -/
theorem tryProg_misled : URun tryProg.excSem (.run [⟨1, [], 7, 7, none⟩] [])
    (.run [⟨2, [.push, .block 9], 8, 8, none⟩, ⟨1, [.push, .block 5], 7, v, none⟩] [8, 7]) := by
  have r1 := tryProg_call.step (.step (.block (a := ⟨2, [.push], 8, 8, none⟩) tryProg_write))
  exact r1.step (.step (.attack (a := ⟨2, [.push, .block 9], 8, 8, none⟩)
    (Small.dangerX (t := [.push]) tryProg_write (by decide)) (.cons 8 (.cons v .nil))))

/-- **C86: exceptions are not checked.** Under the very conditions of `C86_protected_partial`, when an
exception is thrown the unwinder goes on at an address of the attacker's choice. -/
theorem C86_refuted_unwinding : ∃ co info R T bf plan f,
    Built {} [] co info R T bf plan ∧ (∀ f ∈ co.funcs, NoCallAtCheck {} co (bf f)) ∧
    (∀ f ∈ co.funcs, LeftOk [] co T bf f) ∧
    (∀ f ∈ co.funcs, NoRecursion T f) ∧ (∀ f ∈ co.funcs, TailsOk co T f) ∧
    (∀ f ∈ co.funcs, HandlersOk co (bf f) f) ∧
    (∀ f ∈ co.funcs, ∀ L, doLowering {} co f (some (T f)) = some (some L) → CleanupOnly co T f) ∧
    f ∈ co.funcs ∧ ∃ ra, ∀ v, v ≠ ra → ∃ p,
      URun (semOn Flow co plan info (inRegOf {} T) (staysOf bf)) (.run [⟨f, [], ra, ra, none⟩] []) p ∧ Misled p v :=
  ⟨_, _, _, _, _, _, 1, tryProg_ok.built, tryProg_calls,
    Small.allIn rfl rfl rfl,
    tryProg_ok.noRecursion (by decide +kernel), tryProg_tails, tryProg_ok.handlers,
    tryProg_cleanup, by decide, 7, fun v hv =>
      ⟨_, tryProg_misled v, [⟨2, [.push, .block 9], 8, 8, none⟩], _, [], _, rfl, by simp, rfl, hv⟩⟩

end

/-! ## Addresses of abandoned activations -/

/-- After the first call of `f2` was abandoned, the second one makes `f1` return to where the first one
would have returned. -/
theorem tryProg_stale : URun tryProg.excSem (.run [⟨1, [], 7, 7, none⟩] [])
    (.run [⟨1, [.push, .block 5, .block 7, .block 6, .block 8], 7, 8, none⟩] [8, 7]) := by
  have e3 : tryProg.excSem.trace 1 ([.push, .block 5] ++ [.block 7]) :=
    Small.startsX (b' := 7) [tryProg.edges[10]] (by decide) (by decide) (by decide +kernel)
  have e4 : tryProg.excSem.trace 1 ([.push, .block 5, .block 7] ++ [.block 6]) :=
    Small.startsX (b' := 6) [tryProg.edges[10], tryProg.edges[11]] (by decide) (by decide) (by decide +kernel)
  have e5 : tryProg.excSem.trace 1 ([.push, .block 5, .block 7, .block 6] ++ [.block 8]) :=
    Small.startsX (b' := 8) [tryProg.edges[10], tryProg.edges[11], tryProg.edges[13]] (by decide) (by decide)
      (by decide +kernel)
  have d1 : tryProg.excSem.trace 2 ([] ++ [.push]) :=
    Small.startsX (b' := 9) [] (by decide) (by decide) (by decide +kernel)
  have d3 : tryProg.excSem.trace 2 ([.push, .block 9] ++ [.check]) :=
    Small.startsX (b' := 9) [] (by decide) (by decide) (by decide +kernel)
  have r1 := tryProg_call.step (.unwind (up := [⟨2, [.push], 8, 8, none⟩]))
  have r2 := r1.step (.step (.block (a := ⟨1, [.push, .block 5], 7, 7, none⟩) e3))
  have r3 := r2.step (.step (.block (a := ⟨1, [.push, .block 5, .block 7], 7, 7, none⟩) e4))
  have r4 := r3.step (.step (.call (a := ⟨1, [.push, .block 5, .block 7, .block 6], 7, 7, none⟩) (g := 2) 9
    (Small.callsX (t := [.push, .block 5, .block 7]) tryProg.edges[12] (by decide +kernel) e4 (by decide)
      (by decide) (Small.direct (by decide) (by decide) (by decide +kernel)))))
  have r5 := r4.step (.step (.push (a := ⟨2, [], 9, 9, none⟩) d1 tryProg_reg.2))
  have r6 := r5.step (.step (.block (a := ⟨2, [.push], 9, 9, none⟩) tryProg_write))
  have r7 := r6.step (.step (.attack (a := ⟨2, [.push, .block 9], 9, 9, none⟩)
    (Small.dangerX (t := [.push]) tryProg_write (by decide)) (.cons 9 (.cons 8 .nil))))
  have r8 := r7.step (.step (.check (a := ⟨2, [.push, .block 9], 9, 9, none⟩) (n := 0) d3 tryProg_reg.2
    (by decide) rfl))
  have r9 := r8.step (.step (.ret (a := ⟨2, [.push, .block 9, .check], 9, 9, none⟩)
    (Small.endsX (b := 9) [] (by decide) (by decide) (by decide) (by decide) (by decide +kernel)) rfl))
  exact r9.step (.step (.block (a := ⟨1, [.push, .block 5, .block 7, .block 6], 7, 8, none⟩) e5))

/-- **C86: a check accepts the address of an activation that was abandoned.** Under the very conditions
of `C86_protected_partial`. -/
theorem C86_refuted_stale : ∃ co info R T bf plan f,
    Built {} [] co info R T bf plan ∧ (∀ f ∈ co.funcs, NoCallAtCheck {} co (bf f)) ∧
    (∀ f ∈ co.funcs, LeftOk [] co T bf f) ∧
    (∀ f ∈ co.funcs, NoRecursion T f) ∧ (∀ f ∈ co.funcs, TailsOk co T f) ∧
    (∀ f ∈ co.funcs, HandlersOk co (bf f) f) ∧
    (∀ f ∈ co.funcs, ∀ L, doLowering {} co f (some (T f)) = some (some L) → CleanupOnly co T f) ∧
    f ∈ co.funcs ∧ ∃ ra acts l v,
      URun (semOn Flow co plan info (inRegOf {} T) (staysOf bf)) (.run [⟨f, [], ra, ra, none⟩] []) (.run acts l) ∧
      UStep (semOn Flow co plan info (inRegOf {} T) (staysOf bf)) (.run acts l) (.diverted v) ∧
      v ≠ 0 ∧ ∀ x ∈ acts, v ≠ x.ra := by
  refine ⟨_, _, _, _, _, _, 1, tryProg_ok.built, tryProg_calls,
    Small.allIn rfl rfl rfl,
    tryProg_ok.noRecursion (by decide +kernel), tryProg_tails, tryProg_ok.handlers,
    tryProg_cleanup, by decide, 7, _, _, 8, tryProg_stale, ?_, by decide,
    by decide⟩
  have e6 : tryProg.excSem.trace 1 ([.push, .block 5, .block 7, .block 6, .block 8] ++ [.check]) :=
    Small.startsX (b' := 8) [tryProg.edges[10], tryProg.edges[11], tryProg.edges[13]] (by decide) (by decide)
      (by decide +kernel)
  exact .step (.accept (a := ⟨1, [.push, .block 5, .block 7, .block 6, .block 8], 7, 8, none⟩) (n := 0) e6
    tryProg_reg.1 (by decide) (by decide))

/-! ## False alarms -/

/-- `f2` is called from an address whose low half is zero and abandoned. -/
theorem tryProg_alarm : URun tryProg.excSem (.run [⟨1, [], 7, 7, none⟩] [])
    (.run [⟨1, [.push, .block 5, .block 6, .block 8], 7, 7, none⟩] [0x500000000, 7]) := by
  have e1 : tryProg.excSem.trace 1 ([] ++ [.push]) :=
    Small.startsX (b' := 5) [] (by decide) (by decide) (by decide +kernel)
  have e2 : tryProg.excSem.trace 1 ([.push] ++ [.block 5]) :=
    Small.startsX (b' := 5) [] (by decide) (by decide) (by decide +kernel)
  have e3 : tryProg.excSem.trace 1 ([.push, .block 5] ++ [.block 6]) :=
    Small.startsX (b' := 6) [tryProg.edges[9]] (by decide) (by decide) (by decide +kernel)
  have e4 : tryProg.excSem.trace 1 ([.push, .block 5, .block 6] ++ [.block 8]) :=
    Small.startsX (b' := 8) [tryProg.edges[9], tryProg.edges[13]] (by decide) (by decide) (by decide +kernel)
  have d1 : tryProg.excSem.trace 2 ([] ++ [.push]) :=
    Small.startsX (b' := 9) [] (by decide) (by decide) (by decide +kernel)
  have r0 : URun tryProg.excSem (.run [⟨1, [], 7, 7, none⟩] []) _ := .refl _
  have r1 := r0.step (.step (.push (a := ⟨1, [], 7, 7, none⟩) e1 tryProg_reg.1))
  have r2 := r1.step (.step (.block (a := ⟨1, [.push], 7, 7, none⟩) e2))
  have r3 := r2.step (.step (.call (a := ⟨1, [.push, .block 5], 7, 7, none⟩) (g := 2) 0x500000000
    (Small.callsX (t := [.push]) tryProg.edges[8] (by decide +kernel) e2 (by decide) (by decide)
      (Small.direct (by decide) (by decide) (by decide +kernel)))))
  have r4 := r3.step (.step (.push (a := ⟨2, [], 0x500000000, 0x500000000, none⟩) d1 tryProg_reg.2))
  have r5 := r4.step (.unwind (up := [⟨2, [.push], 0x500000000, 0x500000000, none⟩]))
  have r6 := r5.step (.step (.block (a := ⟨1, [.push, .block 5], 7, 7, none⟩) e3))
  exact r6.step (.step (.block (a := ⟨1, [.push, .block 5, .block 6], 7, 7, none⟩) e4))

/-- **C86: the last condition of `UProtected.quiet` is necessary.** Otherwise the program may be killed
although nothing was overwritten. -/
theorem C86_refuted_alarm : ∃ co info R T bf plan f,
    Built {} [] co info R T bf plan ∧ (∀ f ∈ co.funcs, NoCallAtCheck {} co (bf f)) ∧
    (∀ f ∈ co.funcs, LeftOk [] co T bf f) ∧
    (∀ f ∈ co.funcs, NoRecursion T f) ∧ (∀ f ∈ co.funcs, TailsOk co T f) ∧
    (∀ f ∈ co.funcs, HandlersOk co (bf f) f) ∧
    (∀ f ∈ co.funcs, ∀ L, doLowering {} co f (some (T f)) = some (some L) → CleanupOnly co T f) ∧
    f ∈ co.funcs ∧ ∃ ra acts l,
      URun (semOn Flow co plan info (inRegOf {} T) (staysOf bf)) (.run [⟨f, [], ra, ra, none⟩] []) (.run acts l) ∧
      UStep (semOn Flow co plan info (inRegOf {} T) (staysOf bf)) (.run acts l) .killed ∧
      ∀ x ∈ acts, x.slot = x.ra := by
  refine ⟨_, _, _, _, _, _, 1, tryProg_ok.built, tryProg_calls,
    Small.allIn rfl rfl rfl,
    tryProg_ok.noRecursion (by decide +kernel), tryProg_tails, tryProg_ok.handlers,
    tryProg_cleanup, by decide, 7, _, _, tryProg_alarm, ?_, by decide⟩
  have e5 : tryProg.excSem.trace 1 ([.push, .block 5, .block 6, .block 8] ++ [.check]) :=
    Small.startsX (b' := 8) [tryProg.edges[9], tryProg.edges[13]] (by decide) (by decide) (by decide +kernel)
  exact .step (.fail (a := ⟨1, [.push, .block 5, .block 6, .block 8], 7, 7, none⟩) e5
    (fun h => absurd h tryProg_reg.1) (by decide))

/-! ## Handlers of lowered functions -/

/-- `f0` returns at once or calls `f1`, which writes; if this throws, `f0` catches the exception and
returns. -/
def catchProg : Small where
  blocks := [[0, 1, 2, 3, 4], [5]]
  exits := [[1, 3], [5]]
  edges :=
    [{ id := 0, src := 0, trg := 1, type := .condTaken },
     { id := 1, src := 0, trg := 2, type := .condNotTaken },
     { id := 2, src := 2, trg := 5, type := .call, interproc := true },
     { id := 3, src := 2, trg := 3, type := .callFt },
     { id := 4, src := 2, trg := 4, type := .catch },
     retEdge 5 1, retEdge 6 3,
     { id := 7, src := 4, trg := 3, type := .direct },
     retEdge 8 5]
  danger := [5]

theorem catchProg_ok : catchProg.Ok where
  sums := by decide +kernel
  plans := by decide +kernel
  addr := by decide +kernel
  oneCall := by decide +kernel
  entry := by decide +kernel
  closed := by decide +kernel
  ret := by decide +kernel
  exits := by decide +kernel
  handler := by decide +kernel
  nodup := by decide +kernel
  after := by decide +kernel
  resolved := by decide +kernel
  exitIn := by decide +kernel
  nodupEdges := by decide +kernel
  lone := by decide +kernel
  callOut := by decide +kernel

theorem catchProg_calls : ∀ f ∈ catchProg.code.funcs,
    NoCallAtCheck {} catchProg.code (catchProg.bfunc f) := by
  have h : ∀ f ∈ catchProg.code.funcs, ∀ r ∈ checkFastPath false (catchProg.bfunc f).cfg,
      ∀ e ∈ catchProg.edges, e.src ∈ r.2 → e.type ≠ .call := by decide +kernel
  exact fun f hf => Small.noCallAtCheck (h f hf)

theorem catchProg_tails : ∀ f ∈ catchProg.code.funcs, TailsOk catchProg.code catchProg.sums f := by
  have h : ∀ f ∈ catchProg.code.funcs, ∀ e ∈ catchProg.edges, e.src ∈ catchProg.exitsOf f →
      e.interproc = true → e.type ≠ .call → e.type ≠ .ret →
      e.sink = false ∧ ∃ g ∈ catchProg.code.funcs, calleeAt catchProg.code e.trg = some g ∧
        ((catchProg.sums g).writes = true → (catchProg.sums f).writes = true) := by decide +kernel
  exact fun f hf => Small.tailsOk (h f hf)

/-- `f1` overwrites the return address of `f0` and throws. -/
theorem catchProg_attack : URun catchProg.excSem (.run [⟨0, [], 7, 7, none⟩] []) (.hijacked 666) := by
  have hreg : ¬ catchProg.excSem.inReg 0 ∧ ¬ catchProg.excSem.inReg 1 := by
    change ¬ (useRegFrame {} (some (catchProg.sums 0)) = true) ∧
      ¬ (useRegFrame {} (some (catchProg.sums 1)) = true)
    decide +kernel
  have e1 : catchProg.excSem.trace 0 ([] ++ [.block 0]) :=
    Small.startsX (b' := 0) [] (by decide) (by decide) (by decide +kernel)
  have e2 : catchProg.excSem.trace 0 ([.block 0] ++ [.push]) :=
    Small.startsX (b' := 2) [catchProg.edges[1]] (by decide) (by decide) (by decide +kernel)
  have e3 : catchProg.excSem.trace 0 ([.block 0, .push] ++ [.block 2]) :=
    Small.startsX (b' := 2) [catchProg.edges[1]] (by decide) (by decide) (by decide +kernel)
  have e4 : catchProg.excSem.trace 0 ([.block 0, .push, .block 2] ++ [.block 4]) :=
    Small.startsX (b' := 4) [catchProg.edges[1], catchProg.edges[4]] (by decide) (by decide) (by decide +kernel)
  have e5 : catchProg.excSem.trace 0 ([.block 0, .push, .block 2, .block 4] ++ [.block 3]) :=
    Small.startsX (b' := 3) [catchProg.edges[1], catchProg.edges[4], catchProg.edges[7]] (by decide) (by decide)
      (by decide +kernel)
  have d1 : catchProg.excSem.trace 1 ([] ++ [.push]) :=
    Small.startsX (b' := 5) [] (by decide) (by decide) (by decide +kernel)
  have d2 : catchProg.excSem.trace 1 ([.push] ++ [.block 5]) :=
    Small.startsX (b' := 5) [] (by decide) (by decide) (by decide +kernel)
  have r0 : URun catchProg.excSem (.run [⟨0, [], 7, 7, none⟩] []) _ := .refl _
  have r1 := r0.step (.step (.block (a := ⟨0, [], 7, 7, none⟩) e1))
  have r2 := r1.step (.step (.push (a := ⟨0, [.block 0], 7, 7, none⟩) e2 hreg.1))
  have r3 := r2.step (.step (.block (a := ⟨0, [.block 0, .push], 7, 7, none⟩) e3))
  have r4 := r3.step (.step (.call (a := ⟨0, [.block 0, .push, .block 2], 7, 7, none⟩) (g := 1) 8
    (Small.callsX (t := [.block 0, .push]) catchProg.edges[2] (by decide +kernel) e3 (by decide)
      (by decide) (Small.direct (by decide) (by decide) (by decide +kernel)))))
  have r5 := r4.step (.step (.push (a := ⟨1, [], 8, 8, none⟩) d1 hreg.2))
  have r6 := r5.step (.step (.block (a := ⟨1, [.push], 8, 8, none⟩) d2))
  have r7 := r6.step (.step (.attack (a := ⟨1, [.push, .block 5], 8, 8, none⟩)
    (Small.dangerX (t := [.push]) d2 (by decide)) (.cons 8 (.cons 666 .nil))))
  have r8 := r7.step (.unwind (up := [⟨1, [.push, .block 5], 8, 8, none⟩]))
  have r9 := r8.step (.step (.block (a := ⟨0, [.block 0, .push, .block 2], 7, 666, none⟩) e4))
  have r10 := r9.step (.step (.block (a := ⟨0, [.block 0, .push, .block 2, .block 4], 7, 666, none⟩) e5))
  exact r10.step (.step (.hijack (a := ⟨0, [.block 0, .push, .block 2, .block 4, .block 3], 7, 666, none⟩)
    (Small.endsX (b := 3) [catchProg.edges[1], catchProg.edges[4], catchProg.edges[7]] (by decide) (by decide)
      (by decide) (by decide) (by decide +kernel)) (Small.mayReturn (by decide)) (by decide)))

/-- **C86 fails for lowered functions which catch exceptions**: the other conditions of
`C86_protected_partial` hold, yet a return goes unchecked to an address of the attacker's choice. -/
theorem C86_refuted_handlers : ∃ co info R T bf plan f,
    Built {} [] co info R T bf plan ∧ (∀ f ∈ co.funcs, NoCallAtCheck {} co (bf f)) ∧
    (∀ f ∈ co.funcs, LeftOk [] co T bf f) ∧
    (∀ f ∈ co.funcs, NoRecursion T f) ∧ (∀ f ∈ co.funcs, TailsOk co T f) ∧
    (∀ f ∈ co.funcs, HandlersOk co (bf f) f) ∧ f ∈ co.funcs ∧
    ¬ UProtected (semOn Flow co plan info (inRegOf {} T) (staysOf bf)) f :=
  ⟨_, _, _, _, _, _, 0, catchProg_ok.built, catchProg_calls, Small.allIn rfl rfl rfl,
    catchProg_ok.noRecursion (by decide +kernel), catchProg_tails, catchProg_ok.handlers, by decide, fun h => h.unchecked _ _ catchProg_attack⟩

end Verif
