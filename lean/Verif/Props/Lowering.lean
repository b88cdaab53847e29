import Verif.LoweringLemmas
import Verif.Props.CallGraph

/-!
# C32 - C36: lowering
-/

namespace Verif

/-- Facts about parsed functions: edges know their source, edges inside the function stay
inside it, and returns leave it. -/
structure WellFormed (co : CodeObj) (f : Func) : Prop where
  src : ∀ b, ∀ e ∈ co.targets b, e.src = b
  entry : co.entry f ∈ co.blocks f
  closed : ∀ b ∈ co.blocks f, ∀ e ∈ co.targets b, Follow e → e.trg ∈ co.blocks f
  ret : ∀ b, ∀ e ∈ co.targets b, e.type = .ret → ¬ Follow e

/-- Everything the lowered function executes along a walk from its entry. -/
def Lowered.trace (L : Lowered) (entry : Blk) (es : List Edge) : List Ev :=
  traceFrom L.dest (L.edgePush.map Prod.fst) (L.blockPush.map Prod.fst) (L.pops.map Prod.fst)
    (entry, false) es

/-! ## What the transformation produces -/

theorem mapM_fst {α β : Type} {f : α → Option β} (g : β → α) (hf : ∀ x y, f x = some y → g y = x) :
    ∀ (l : List α) (l' : List β), l.mapM f = some l' → l'.map g = l := by
  intro l
  induction l with
  | nil => intro l' h; simp at h; subst h; rfl
  | cons a l ih =>
    intro l' h
    rw [List.mapM_cons] at h
    cases ha : f a with
    | none => rw [ha] at h; cases h
    | some y =>
      rw [ha] at h
      cases hl : l.mapM f with
      | none => rw [hl] at h; cases h
      | some ys =>
        rw [hl] at h
        cases h
        simp [hf a y ha, ih ys hl]

theorem edgePushOf_fst {fl : InstrFlags} {co : CodeObj} {s : FuncSummary} {u : Bool} (e : Edge)
    (y : Edge × PushKind) (h : edgePushOf fl co s u e = some y) : y.1 = e := by
  unfold edgePushOf at h
  cases hl : s.blockEndSPHeight.lookup (co.start e.src) with
  | none => rw [hl] at h; cases h
  | some v =>
    rw [hl] at h
    simp only [bind, Option.bind] at h
    split at h
    · cases h; rfl
    · split at h <;> (cases h; rfl)

theorem blockPushOf_fst {fl : InstrFlags} {co : CodeObj} {s : FuncSummary} {u : Bool} (b : PNode)
    (y : PNode × PushKind × Option Nat) (h : blockPushOf fl co s u b = some y) : y.1 = b := by
  unfold blockPushOf at h
  cases hl : s.blockEntrySPHeight.lookup (co.start b.1) with
  | none => rw [hl] at h; cases h
  | some v =>
    rw [hl] at h
    simp only [bind, Option.bind] at h
    split at h
    · cases h; rfl
    · split at h <;> (cases h; rfl)

theorem popOf_some {fl : InstrFlags} {co : CodeObj} {s : FuncSummary} {u : Bool} (b : Blk) :
    if isNonreturningCall (co.targets b) then popOf fl co s u b = none
    else ∃ k, popOf fl co s u b = some (b, k) := by
  unfold popOf
  split
  · rfl
  · dsimp only
    split
    · exact ⟨_, rfl⟩
    · split <;> exact ⟨_, rfl⟩

theorem mem_pops {fl : InstrFlags} {co : CodeObj} {s : FuncSummary} {u : Bool} (l : List Blk) (b : Blk) :
    b ∈ (l.filterMap (popOf fl co s u)).map Prod.fst ↔
      b ∈ l ∧ isNonreturningCall (co.targets b) = false := by
  rw [List.mem_map]
  constructor
  · rintro ⟨p, hp, rfl⟩
    obtain ⟨x, hx, hpx⟩ := List.mem_filterMap.mp hp
    have := popOf_some (fl := fl) (co := co) (s := s) (u := u) x
    split at this
    · rw [this] at hpx; cases hpx
    · rename_i hn
      obtain ⟨k, hk⟩ := this
      rw [hk] at hpx
      cases hpx
      exact ⟨hx, by simpa using hn⟩
  · rintro ⟨hb, hn⟩
    have := popOf_some (fl := fl) (co := co) (s := s) (u := u) b
    rw [hn] at this
    obtain ⟨k, hk⟩ := this
    exact ⟨(b, k), List.mem_filterMap.mpr ⟨b, hb, hk⟩, rfl⟩

/-- The result of lowering. -/
structure LowFacts (co : CodeObj) (f : Func) (s : FuncSummary) (L : Lowered) (R : List Edge)
    (reach : List PNode) (cs : CState) : Prop where
  entrySafe : co.entry f ∉ s.unsafeBlocks
  redirect : ∀ e, e ∈ R ↔ ∃ c, SafeReach co.targets (stopAt co s) (co.entry f) c ∧ e ∈ co.targets c ∧
    Follow e ∧ stopAt co s e.trg = true
  dest : ∀ e c, L.dest e c =
    if c = false then (if e ∈ R then (e.trg, true) else (e.trg, false))
    else if (∃ b ∈ co.blocks f, e ∈ co.targets b) ∧ Follow e then (e.trg, true) else (e.trg, false)
  reached : ∀ (es : List Edge) (n : PNode),
    CopyWalk co.targets Follow' L.dest (co.entry f, false) es n → n ∈ reach
  edges : L.edgePush.map Prod.fst = cs.redirect
  blocks : L.blockPush.map Prod.fst = cs.inst
  coalesced : Coalesced ((co.blocks f).flatMap co.targets) L.dest reach R cs
  pops : ∀ b, b ∈ L.pops.map Prod.fst ↔ b ∈ co.exitBlocks f ∧ isNonreturningCall (co.targets b) = false

theorem low_facts {fl : InstrFlags} {co : CodeObj} {f : Func} {s : FuncSummary} {L : Lowered}
    (ha : fl.asserts = true) (h : doLowering fl co f (some s) = some (some L)) :
    ∃ r reach cs, redirectEdges co.targets (stopAt co s) (((co.blocks f).flatMap co.targets).length + 1)
      {} (co.entry f) = some r ∧ s.hasIndirectCf = false ∧
      redZoneConflict fl co s r.redirect = false ∧ LowFacts co f s L r.redirect reach cs := by
  simp only [doLowering] at h
  split at h
  · cases h
  split at h
  · cases h
  rename_i _ hlow
  split at h
  · cases h
  rename_i hind
  cases hr : redirectEdges co.targets (stopAt co s) (((co.blocks f).flatMap co.targets).length + 1) {}
      (co.entry f) with
  | none => rw [hr] at h; cases h
  | some r =>
    rw [hr] at h
    simp only [bind, Option.bind] at h
    split at h
    · cases h
    split at h
    · cases h
    rename_i _ hrz
    cases hL : lowerWith fl co f s r.redirect with
    | none => rw [hL] at h; cases h
    | some L' =>
      rw [hL] at h
      cases h
      unfold lowerWith at hL
      rw [ha] at hL
      cases hd1 : cloneCFG true co f fun e _ => (e.trg, false) with
      | none => rw [hd1] at hL; cases hL
      | some d1 =>
        rw [hd1] at hL
        cases hd2 : redirectAll true (co.blocks f) r.redirect d1 with
        | none => simp only [bind, Option.bind, hd2] at hL; cases hL
        | some d2 =>
          simp only [bind, Option.bind, hd2] at hL
          cases hre : reachableBlocks co.targets d2 (2 * (co.blocks f).length + 1) [] (co.entry f, false) with
          | none => rw [hre] at hL; cases hL
          | some reach =>
            rw [hre] at hL
            dsimp only at hL
            split at hL
            · cases hL
            rename_i ep hep
            dsimp only at hL
            split at hL
            · cases hL
            rename_i bp hbp
            cases hL
            refine ⟨r, reach, coalesce (sourcesOf co f d2) reach r.redirect, rfl, by simpa using hind, by simpa using hrz, ?_⟩
            refine ⟨?_, mem_redirect_iff hr, ?_, ?_, mapM_fst _ edgePushOf_fst _ _ hep,
              mapM_fst _ blockPushOf_fst _ _ hbp, ?_, mem_pops _⟩
            · intro hu
              apply hlow
              simp [FuncSummary.lowerInstrumentation, hu]
            · intro e c
              show d2 e c = _
              rw [redirectAll_dest hd2 e c, cloneCFG_dest hd1 e c]
              cases c <;> simp
            · intro es n hw
              exact walk_reachable hre hw (reachable_explored _ _ _ _ hre).1
            · exact coalesce_spec co f d2 reach r.redirect _ (fun e => List.mem_flatMap)

/-! ## C32 -/

/-- Redirection only chooses between a block and its copy. -/
theorem LowFacts.dest_fst {co : CodeObj} {f : Func} {s : FuncSummary} {L : Lowered} {R : List Edge}
    {reach : List PNode} {cs : CState} (h : LowFacts co f s L R reach cs) (e : Edge) (c : Bool) :
    (L.dest e c).1 = e.trg := by
  rw [h.dest e c]
  split <;> split <;> rfl

/-- **C32, soundness.** Every walk of the lowered function is a walk of the original. -/
theorem C32_project {fl : InstrFlags} {co : CodeObj} {f : Func} {s : FuncSummary} {L : Lowered}
    (ha : fl.asserts = true) (h : doLowering fl co f (some s) = some (some L)) {n n' : PNode}
    {es : List Edge} (hw : CopyWalk co.targets Flow L.dest n es n') :
    Walk co.targets Flow n.1 es n'.1 := by
  obtain ⟨_, _, _, _, _, _, hl⟩ := low_facts ha h
  induction hw with
  | nil n => exact .nil _
  | cons he hf _ ih =>
    rw [hl.dest_fst] at ih
    exact .cons he hf ih

/-- **C32, completeness.** Every walk of the original function, from an original or a copy, is
one of the lowered function, ending in the same block or its copy.  The walk of the lowered
function visits the same blocks by `C32_project`, and it is unique because the edges
determine the blocks. -/
theorem C32_lift {fl : InstrFlags} {co : CodeObj} {f : Func} {s : FuncSummary} {L : Lowered}
    (ha : fl.asserts = true) (h : doLowering fl co f (some s) = some (some L)) {b b' : Blk}
    {es : List Edge} (hw : Walk co.targets Flow b es b') (c : Bool) :
    ∃ c', CopyWalk co.targets Flow L.dest (b, c) es (b', c') := by
  obtain ⟨_, _, _, _, _, _, hl⟩ := low_facts ha h
  have : ∀ n : PNode, n.1 = b → ∃ c', CopyWalk co.targets Flow L.dest n es (b', c') := by
    clear c
    induction hw with
    | nil b => intro n hn; exact ⟨n.2, by rw [← hn]; exact .nil _⟩
    | cons he hf _ ih =>
      intro n hn
      obtain ⟨c', hc'⟩ := ih (L.dest _ n.2) (hl.dest_fst _ _)
      exact ⟨c', .cons (by rw [hn]; exact he) hf hc'⟩
  exact this (b, c) rfl

/-! ## Walks without exceptions -/

section
variable {co : CodeObj} {f : Func} {s : FuncSummary} {L : Lowered} {R : List Edge}
  {reach : List PNode} {cs : CState}

/-- In a copy the walk stays in the copies and executes a check exactly at the end. -/
theorem copy_trace (hwf : WellFormed co f) (hl : LowFacts co f s L R reach cs) {X : List Blk}
    (hX : ∀ b ∈ X, ∀ e ∈ co.targets b, ¬ Follow e) {n n' : PNode} {es : List Edge}
    (hw : CopyWalk co.targets Follow L.dest n es n') (hn : n.2 = true) (hb : n.1 ∈ co.blocks f) :
    n'.2 = true ∧ traceFrom L.dest R [] X n es =
      (visits n.1 es).map .block ++ (if n'.1 ∈ X then [.check] else []) := by
  induction hw with
  | nil n => exact ⟨hn, by simp [traceFrom, nodeEv, visits, hn]⟩
  | @cons n n' e es he hf hw ih =>
    have hd : L.dest e n.2 = (e.trg, true) := by
      rw [hl.dest, hn, if_neg (by decide), if_pos ⟨⟨n.1, hb, he⟩, hf⟩]
    rw [hd] at ih
    obtain ⟨h1, h2⟩ := ih rfl (hwf.closed _ hb _ he hf)
    have hnx : n.1 ∉ X := fun hx => hX _ hx _ he hf
    refine ⟨h1, ?_⟩
    rw [traceFrom, hd, h2]
    simp [nodeEv, edgeEv, visits, hn, hnx]

/-- A walk from the entry either stays in the originals, executing nothing but blocks at which
the search does not stop, or enters the copies on the first edge to a block at which it does,
executing a push there and a check at the end. -/
theorem low_trace (hwf : WellFormed co f) (hl : LowFacts co f s L R reach cs) {X : List Blk}
    (hX : ∀ b ∈ X, ∀ e ∈ co.targets b, ¬ Follow e) {n n' : PNode} {es : List Edge}
    (hw : CopyWalk co.targets Follow L.dest n es n') (hn : n.2 = false)
    (hb : SafeReach co.targets (stopAt co s) (co.entry f) n.1) (hbb : n.1 ∈ co.blocks f) :
    (n'.2 = false ∧ (∀ e ∈ es, stopAt co s e.trg = false) ∧
      traceFrom L.dest R [] X n es = (visits n.1 es).map .block) ∨
    (n'.2 = true ∧ ∃ es1 e es2, es = es1 ++ e :: es2 ∧ (∀ x ∈ es1, stopAt co s x.trg = false) ∧
      stopAt co s e.trg = true ∧
      traceFrom L.dest R [] X n es = (visits n.1 es1).map .block ++ .push ::
        ((visits e.trg es2).map .block ++ (if n'.1 ∈ X then [.check] else []))) := by
  induction hw with
  | nil n => exact .inl ⟨hn, by simp, by simp [traceFrom, nodeEv, visits, hn]⟩
  | @cons n n' e es he hf hw ih =>
    have htrg := hwf.closed _ hbb _ he hf
    cases hs : stopAt co s e.trg with
    | true =>
      have hR : e ∈ R := (hl.redirect e).mpr ⟨n.1, hb, he, hf, hs⟩
      have hd : L.dest e n.2 = (e.trg, true) := by rw [hl.dest, hn, if_pos rfl, if_pos hR]
      rw [hd] at hw
      obtain ⟨h1, h2⟩ := copy_trace hwf hl hX hw rfl htrg
      right
      refine ⟨h1, [], e, es, rfl, by simp, hs, ?_⟩
      rw [traceFrom, hd, h2]
      simp [nodeEv, edgeEv, visits, hn, hR]
    | false =>
      have hR : e ∉ R := by
        intro h
        obtain ⟨_, _, _, _, h4⟩ := (hl.redirect e).mp h
        rw [hs] at h4; cases h4
      have hd : L.dest e n.2 = (e.trg, false) := by rw [hl.dest, hn, if_pos rfl, if_neg hR]
      rw [hd] at ih
      rcases ih rfl (.step hb he hf hs) htrg with ⟨h1, h2, h3⟩ | ⟨h1, es1, x, es2, h2, h3, h4, h5⟩
      · left
        refine ⟨h1, ?_, ?_⟩
        · intro y hy
          rcases List.mem_cons.mp hy with rfl | hy
          · exact hs
          · exact h2 y hy
        · rw [traceFrom, hd, h3]
          simp [nodeEv, edgeEv, visits, hn, hR]
      · right
        refine ⟨h1, e :: es1, x, es2, by rw [h2]; rfl, ?_, h4, ?_⟩
        · intro y hy
          rcases List.mem_cons.mp hy with rfl | hy
          · exact hs
          · exact h3 y hy
        · rw [traceFrom, hd, h5]
          simp [nodeEv, edgeEv, visits, hn, hR]

/-- Safe reachability within the originals. -/
theorem safe_walk (hwf : WellFormed co f) (hl : LowFacts co f s L R reach cs) {c : Blk}
    (h : SafeReach co.targets (stopAt co s) (co.entry f) c) :
    c ∈ co.blocks f ∧ ∃ es, CopyWalk co.targets Follow' L.dest (co.entry f, false) es (c, false) := by
  induction h with
  | refl => exact ⟨hwf.entry, [], .nil _⟩
  | @step c e _ he hf hs ih =>
    obtain ⟨hc, es, hw⟩ := ih
    refine ⟨hwf.closed _ hc _ he hf, es ++ [e], ?_⟩
    have hR : e ∉ R := by
      intro h
      obtain ⟨_, _, _, _, h4⟩ := (hl.redirect e).mp h
      rw [hs] at h4; cases h4
    have hd : L.dest e (c, false).2 = (e.trg, false) := by rw [hl.dest, if_pos rfl, if_neg hR]
    rw [← hd]
    exact hw.snoc he ⟨hf, fun h => hwf.ret _ _ he h hf⟩

/-- Coalescing does not change what is executed. -/
theorem coalesce_trace (hwf : WellFormed co f) (hl : LowFacts co f s L R reach cs) (X : List Blk)
    {es : List Edge} {n n' : PNode} (hw : CopyWalk co.targets Flow L.dest n es n')
    (hn : n.2 = true → ∃ es0, CopyWalk co.targets Follow' L.dest (co.entry f, false) es0 n) :
    ∃ t, traceFrom L.dest R [] X n es = nodeEv [] X n ++ t ∧
      traceFrom L.dest cs.redirect cs.inst X n es = nodeEv cs.inst X n ++ t := by
  induction hw with
  | nil n => exact ⟨[], by simp [traceFrom], by simp [traceFrom]⟩
  | @cons n n' e es he hf hw ih =>
    have hstep : (edgeEv R e n.2 ++ nodeEv [] X (L.dest e n.2) =
        edgeEv cs.redirect e n.2 ++ nodeEv cs.inst X (L.dest e n.2)) ∧
        ((L.dest e n.2).2 = true →
          ∃ es0, CopyWalk co.targets Follow' L.dest (co.entry f, false) es0 (L.dest e n.2)) := by
      cases hc : n.2 with
      | false =>
        by_cases hR : e ∈ R
        · obtain ⟨c, h1, h2, h3, _⟩ := (hl.redirect e).mp hR
          obtain ⟨hcb, es0, hw0⟩ := safe_walk hwf hl h1
          have hmem : e ∈ (co.blocks f).flatMap co.targets := List.mem_flatMap.mpr ⟨c, hcb, h2⟩
          refine ⟨?_, fun _ => ⟨es0 ++ [e], hw0.snoc h2 ⟨h3, fun h => hwf.ret _ _ h2 h h3⟩⟩⟩
          have hk := hl.coalesced.keep e hmem
          by_cases hi : L.dest e false ∈ cs.inst <;> simp [edgeEv, nodeEv, hk, hR, hi]
        · have hd : L.dest e false = (e.trg, false) := by rw [hl.dest, if_pos rfl, if_neg hR]
          have hi : (e.trg, false) ∉ cs.inst := fun h => by
            have := hl.coalesced.clone _ h
            cases this
          have hcs : e ∉ cs.redirect := fun h => hR (hl.coalesced.sub _ h)
          rw [hd]
          exact ⟨by simp [edgeEv, nodeEv, hR, hcs, hi], fun h => by cases h⟩
      | true =>
        obtain ⟨es0, hw0⟩ := hn hc
        by_cases hcl : (L.dest e true).2 = true
        · have hef : (∃ b ∈ co.blocks f, e ∈ co.targets b) ∧ Follow e := by
            rw [hl.dest, if_neg (by decide)] at hcl
            split at hcl
            · assumption
            · cases hcl
          have hmem : e ∈ (co.blocks f).flatMap co.targets := List.mem_flatMap.mpr hef.1
          have hw1 := hw0.snoc he (show Follow' e from ⟨hef.2, fun h => hwf.ret _ _ he h hef.2⟩)
          rw [hc] at hw1
          refine ⟨?_, fun _ => ⟨_, hw1⟩⟩
          have hi : L.dest e true ∉ cs.inst := by
            intro hi
            rcases hl.coalesced.only e hmem true hi with ⟨h, _⟩ | h
            · cases h
            · apply h
              have := hl.reached es0 n hw0
              rw [hwf.src _ _ he, ← hc]
              exact this
          simp [edgeEv, nodeEv, hi]
        · have hi : L.dest e true ∉ cs.inst := fun h => hcl (hl.coalesced.clone _ h)
          exact ⟨by simp [edgeEv, nodeEv, hi], fun h => absurd h hcl⟩
    obtain ⟨t, h1, h2⟩ := ih hstep.2
    refine ⟨edgeEv R e n.2 ++ (nodeEv [] X (L.dest e n.2) ++ t), ?_, ?_⟩
    · rw [traceFrom, h1, List.append_assoc]
    · rw [traceFrom, h2, List.append_assoc, ← List.append_assoc (edgeEv cs.redirect e n.2),
        ← hstep.1, List.append_assoc]

end

/-- **C35.** Coalescing does not change what is executed, not even in the presence of
exceptions: along every walk the lowered function executes exactly what it would execute with
a push on each redirected edge and none in a block. -/
theorem C35_coalescing {fl : InstrFlags} {co : CodeObj} {f : Func} {s : FuncSummary} {L : Lowered}
    (hwf : WellFormed co f) (ha : fl.asserts = true)
    (h : doLowering fl co f (some s) = some (some L)) {n' : PNode} {es : List Edge}
    (hw : CopyWalk co.targets Flow L.dest (co.entry f, false) es n') :
    ∃ R, (∀ e, e ∈ R ↔ ∃ c, SafeReach co.targets (stopAt co s) (co.entry f) c ∧
        e ∈ co.targets c ∧ Follow e ∧ stopAt co s e.trg = true) ∧
      L.trace (co.entry f) es =
        traceFrom L.dest R [] (L.pops.map Prod.fst) (co.entry f, false) es := by
  obtain ⟨r, reach, cs, _, _, _, hl⟩ := low_facts ha h
  refine ⟨r.redirect, hl.redirect, ?_⟩
  obtain ⟨t, h1, h2⟩ := coalesce_trace hwf hl (L.pops.map Prod.fst) hw
    (fun h => by cases h)
  unfold Lowered.trace
  rw [hl.edges, hl.blocks, h1, h2]
  have : (co.entry f, false) ∉ cs.inst := fun h => by
    have := hl.coalesced.clone _ h
    cases this
  simp [nodeEv, this]

/-! ## C33 and C34 -/

/-- Exits are not left to other blocks of the function: no conditional tail calls. -/
def PlainExits (co : CodeObj) (f : Func) : Prop :=
  ∀ b ∈ co.exitBlocks f, ∀ e ∈ co.targets b, ¬ Follow e

theorem lift_follow {co : CodeObj} {f : Func} {s : FuncSummary} {L : Lowered} {R : List Edge}
    {reach : List PNode} {cs : CState} (hl : LowFacts co f s L R reach cs) {b b' : Blk}
    {es : List Edge} (hw : Walk co.targets Follow b es b') :
    ∀ n : PNode, n.1 = b → ∃ c', CopyWalk co.targets Follow L.dest n es (b', c') := by
  induction hw with
  | nil b => intro n hn; exact ⟨n.2, by rw [← hn]; exact .nil _⟩
  | cons he hf _ ih =>
    intro n hn
    obtain ⟨c', hc'⟩ := ih (L.dest _ n.2) (hl.dest_fst _ _)
    exact ⟨c', .cons (by rw [hn]; exact he) hf hc'⟩

/-- What a lowered function executes along a walk of the original: either the blocks only, all
of them safe, or a push before the first block at which the search stops and, at a returning
exit, a check at the end. -/
theorem low_shape {fl : InstrFlags} {co : CodeObj} {f : Func} {s : FuncSummary} {L : Lowered}
    (hwf : WellFormed co f) (hex : PlainExits co f) (ha : fl.asserts = true)
    (h : doLowering fl co f (some s) = some (some L)) {es : List Edge} {b' : Blk}
    (hw : Walk co.targets Follow (co.entry f) es b') :
    co.entry f ∉ s.unsafeBlocks ∧
    (((∀ e ∈ es, stopAt co s e.trg = false) ∧
      L.trace (co.entry f) es = (visits (co.entry f) es).map .block) ∨
    (∃ es1 e es2, es = es1 ++ e :: es2 ∧ (∀ x ∈ es1, stopAt co s x.trg = false) ∧
      stopAt co s e.trg = true ∧
      L.trace (co.entry f) es = (visits (co.entry f) es1).map .block ++ .push ::
        ((visits e.trg es2).map .block ++
          (if b' ∈ co.exitBlocks f ∧ isNonreturningCall (co.targets b') = false
            then [.check] else [])))) := by
  obtain ⟨r, reach, cs, _, _, _, hl⟩ := low_facts ha h
  refine ⟨hl.entrySafe, ?_⟩
  obtain ⟨c', hcw⟩ := lift_follow hl hw (co.entry f, false) rfl
  have hX : ∀ b ∈ L.pops.map Prod.fst, ∀ e ∈ co.targets b, ¬ Follow e :=
    fun b hb => hex b ((hl.pops b).mp hb).1
  have hflow : CopyWalk co.targets Flow L.dest (co.entry f, false) es (b', c') :=
    hcw.mono fun e h => ⟨h.1, h.2.1⟩
  obtain ⟨t, h1, h2⟩ := coalesce_trace hwf hl (L.pops.map Prod.fst) hflow
    (fun h => by cases h)
  have htr : L.trace (co.entry f) es =
      traceFrom L.dest r.redirect [] (L.pops.map Prod.fst) (co.entry f, false) es := by
    have hni : (co.entry f, false) ∉ cs.inst := fun h => by
      have := hl.coalesced.clone _ h
      cases this
    unfold Lowered.trace
    rw [hl.edges, hl.blocks, h1, h2]
    simp [nodeEv, hni]
  rw [htr]
  rcases low_trace hwf hl hX hcw rfl (.refl _) hwf.entry with
    ⟨_, k2, k3⟩ | ⟨_, es1, e, es2, k2, k3, k4, k5⟩
  · exact .inl ⟨k2, k3⟩
  · refine .inr ⟨es1, e, es2, k2, k3, k4, ?_⟩
    rw [k5]
    simp only [hl.pops]

/-- The blocks among the events. -/
def Ev.blk : Ev → Option Blk
  | .block b => some b
  | _ => none

/-- What a protected function may execute on the way through the blocks `bs`. -/
structure Guarded (bad : Blk → Prop) (bs : List Blk) (t : List Ev) : Prop where
  /-- exactly these blocks are executed -/
  blocks : t.filterMap Ev.blk = bs
  /-- a bad block is executed only after a push -/
  before : ∀ t1 b t2, t = t1 ++ .block b :: t2 → bad b → .push ∈ t1
  /-- there is at most one push -/
  once : t.count .push ≤ 1
  /-- a check comes last and only after a push -/
  last : ∀ t1 t2, t = t1 ++ .check :: t2 → t2 = [] ∧ .push ∈ t1

theorem filterMap_block (l : List Blk) : (l.map Ev.block).filterMap Ev.blk = l := by
  induction l with
  | nil => rfl
  | cons a l ih => simp [Ev.blk, ih]

theorem count_push_block (l : List Blk) : (l.map Ev.block).count .push = 0 := by
  rw [List.count_eq_zero]; simp

theorem count_check_block (l : List Blk) : (l.map Ev.block).count .check = 0 := by
  rw [List.count_eq_zero]; simp

theorem guarded_blocks {bad : Blk → Prop} {bs : List Blk} (h : ∀ b ∈ bs, ¬ bad b) :
    Guarded bad bs (bs.map .block) where
  blocks := filterMap_block bs
  before t1 b t2 ht hb := by
    have : Ev.block b ∈ bs.map Ev.block := by rw [ht]; simp
    obtain ⟨x, hx, e⟩ := List.mem_map.mp this
    cases e
    exact absurd hb (h b hx)
  once := by rw [count_push_block]; omega
  last t1 t2 ht := by
    have : Ev.check ∈ bs.map Ev.block := by rw [ht]; simp
    simp at this

theorem guarded_push {bad : Blk → Prop} {bs bs' : List Blk} (c : Prop) [Decidable c]
    (h : ∀ b ∈ bs, ¬ bad b) :
    Guarded bad (bs ++ bs') (bs.map .block ++ .push :: (bs'.map .block ++ if c then [.check] else []))
      where
  blocks := by
    rw [List.filterMap_append, filterMap_block, List.filterMap_cons_none rfl, List.filterMap_append,
      filterMap_block]
    split <;> simp [Ev.blk]
  before t1 b t2 ht hb := by
    rcases List.append_eq_append_iff.mp ht with ⟨a', h1, h2⟩ | ⟨c', h1, h2⟩
    · rw [h1]
      cases a' with
      | nil => cases h2
      | cons x a' => obtain ⟨rfl, _⟩ := List.cons.inj h2; simp
    · cases c' with
      | nil => cases h2
      | cons x c' =>
        cases h2
        have : Ev.block b ∈ bs.map Ev.block := by rw [h1]; simp
        obtain ⟨x, hx, e⟩ := List.mem_map.mp this
        cases e
        exact absurd hb (h b hx)
  once := by
    rw [List.count_append, count_push_block, List.count_cons, List.count_append, count_push_block]
    split <;> simp
  last t1 t2 ht := by
    rcases List.append_eq_append_iff.mp ht with ⟨a', h1, h2⟩ | ⟨c', h1, h2⟩
    · cases a' with
      | nil => cases h2
      | cons x a' =>
        obtain ⟨rfl, h5⟩ := List.cons.inj h2
        refine ⟨?_, by rw [h1]; simp⟩
        rcases List.append_eq_append_iff.mp h5 with ⟨a'', h3, h4⟩ | ⟨c'', h3, h4⟩
        · cases a'' with
          | nil =>
            split at h4
            · cases h4; rfl
            · cases h4
          | cons x a'' =>
            split at h4
            · have := (List.cons.inj h4).2; simp at this
            · cases h4
        · cases c'' with
          | nil =>
            split at h4
            · cases h4; rfl
            · cases h4
          | cons x c'' =>
            cases h4
            have : Ev.check ∈ bs'.map Ev.block := by rw [h3]; simp
            simp at this
    · cases c' with
      | nil => cases h2
      | cons x c' =>
        cases h2
        have : Ev.check ∈ bs.map Ev.block := by rw [h1]; simp
        simp at this

/-- **C33, what holds.** Along every walk from the entry, in a function whose exits are not left
to other blocks of the function and through no exception edge: the lowered function executes
the blocks of the original, pushes before any unsafe block and at most once, checks only after
a push and as the last thing; and at a returning exit it has executed as many checks as pushes.
Missing: conditional tail calls, for which it is false. -/
theorem C33_lowering_partial {fl : InstrFlags} {co : CodeObj} {f : Func} {s : FuncSummary}
    {L : Lowered} (hwf : WellFormed co f) (hex : PlainExits co f) (ha : fl.asserts = true)
    (h : doLowering fl co f (some s) = some (some L)) {es : List Edge} {b' : Blk}
    (hw : Walk co.targets Follow (co.entry f) es b') :
    Guarded (· ∈ s.unsafeBlocks) (visits (co.entry f) es) (L.trace (co.entry f) es) ∧
    (b' ∈ co.exitBlocks f → isNonreturningCall (co.targets b') = false →
      (L.trace (co.entry f) es).count .check = (L.trace (co.entry f) es).count .push) := by
  have hsafe : ∀ es : List Edge, co.entry f ∉ s.unsafeBlocks →
      (∀ e ∈ es, stopAt co s e.trg = false) → ∀ b ∈ visits (co.entry f) es, b ∉ s.unsafeBlocks := by
    intro es he hes b hb hbad
    rcases List.mem_cons.mp hb with rfl | hb
    · exact he hbad
    · obtain ⟨e, h1, rfl⟩ := List.mem_map.mp hb
      have := hes e h1
      simp [stopAt, hbad] at this
  obtain ⟨he, ⟨h1, h2⟩ | ⟨es1, e, es2, h1, h2, h3, h4⟩⟩ := low_shape hwf hex ha h hw
  · rw [h2]
    refine ⟨guarded_blocks (hsafe es he h1), fun _ _ => ?_⟩
    rw [count_push_block, count_check_block]
  · rw [h4]
    have hv : visits (co.entry f) es = visits (co.entry f) es1 ++ visits e.trg es2 := by
      simp [visits, h1]
    rw [hv]
    refine ⟨guarded_push _ (hsafe es1 he h2), fun k1 k2 => ?_⟩
    rw [if_pos ⟨k1, k2⟩]
    simp [count_push_block, count_check_block]

/-- **C34.** Along a walk through safe blocks the lowered function executes nothing but the
blocks; and it pushes if the walk visits an unsafe block. -/
theorem C34_safe_paths_free {fl : InstrFlags} {co : CodeObj} {f : Func} {s : FuncSummary}
    {L : Lowered} (hwf : WellFormed co f) (hex : PlainExits co f) (ha : fl.asserts = true)
    (hind : s.hasIndirectCf = true ↔ ∃ b e, HasEdge co f b e ∧ e.type = .indirect ∧ e.sink = false)
    (h : doLowering fl co f (some s) = some (some L)) {es : List Edge} {b' : Blk}
    (hw : Walk co.targets Follow (co.entry f) es b') :
    ((∀ e ∈ es, e.trg ∉ s.unsafeBlocks) →
      L.trace (co.entry f) es = (visits (co.entry f) es).map .block) ∧
    ((∃ e ∈ es, e.trg ∈ s.unsafeBlocks) → .push ∈ L.trace (co.entry f) es) := by
  obtain ⟨_, _, _, _, hi, _, _⟩ := low_facts ha h
  have hno : ∀ b ∈ co.blocks f, hasIndJump co.targets b = false := by
    intro b hb
    cases hj : hasIndJump co.targets b with
    | false => rfl
    | true =>
      obtain ⟨e, he, hc⟩ := List.any_eq_true.mp hj
      simp only [Bool.and_eq_true, Bool.not_eq_true', decide_eq_true_eq] at hc
      have hf := (follow_iff e).mp hc.1
      have := hind.mpr ⟨b, e, ⟨hb, he⟩, hc.2, hf.1⟩
      rw [hi] at this; cases this
  have hin : ∀ {b es b'}, Walk co.targets Follow b es b' → b ∈ co.blocks f →
      ∀ e ∈ es, e.trg ∈ co.blocks f := by
    intro b es b' hw
    induction hw with
    | nil => intro _ e he; cases he
    | cons he hf _ ih =>
      intro hb e he'
      have := hwf.closed _ hb _ he hf
      rcases List.mem_cons.mp he' with rfl | he'
      · exact this
      · exact ih this e he'
  have hstop : ∀ e ∈ es, stopAt co s e.trg = true → e.trg ∈ s.unsafeBlocks := by
    intro e he hs
    rw [stopAt, hno _ (hin hw hwf.entry e he), Bool.or_false] at hs
    simpa using hs
  obtain ⟨_, ⟨h1, h2⟩ | ⟨es1, e, es2, h1, h2, h3, h4⟩⟩ := low_shape hwf hex ha h hw
  · refine ⟨fun _ => h2, ?_⟩
    rintro ⟨e, he, hbad⟩
    have := h1 e he
    simp [stopAt, hbad] at this
  · refine ⟨fun hs => ?_, fun _ => by rw [h4]; simp⟩
    have he : e ∈ es := by rw [h1]; simp
    exact absurd (hstop e he h3) (hs e he)

/-! ## C36: what holds with exceptions -/

section
variable {co : CodeObj} {f : Func} {s : FuncSummary} {L : Lowered} {R : List Edge}
  {reach : List PNode} {cs : CState}

theorem exc_last (hl : LowFacts co f s L R reach cs) {X : List Blk}
    (hX : ∀ b ∈ X, ∀ e ∈ co.targets b, ¬ Flow e) {n n' : PNode} {es : List Edge}
    (hw : CopyWalk co.targets Flow L.dest n es n') :
    ∀ t1 t2, traceFrom L.dest R [] X n es = t1 ++ .check :: t2 → t2 = [] ∧ (n.2 = true ∨ .push ∈ t1) := by
  induction hw with
  | nil n =>
    intro t1 t2 h
    rw [traceFrom, nodeEv] at h
    simp only [List.not_mem_nil, if_false, List.nil_append] at h
    cases t1 with
    | nil => cases h
    | cons x t1 =>
      have h := (List.cons.inj h).2
      change (if n.2 = true ∧ n.1 ∈ X then [Ev.check] else []) = t1 ++ .check :: t2 at h
      split at h
      · rename_i hc
        cases t1 with
        | nil => exact ⟨(List.cons.inj h).2.symm, .inl hc.1⟩
        | cons y t1 =>
          have := (List.cons.inj h).2
          simp at this
      · simp at h
  | @cons n n' e es he hf hw ih =>
    intro t1 t2 h
    have hnx : n.1 ∉ X := fun hx => hX _ hx _ he hf
    rw [traceFrom] at h
    have hnode : nodeEv [] X n = [.block n.1] := by simp [nodeEv, hnx]
    rw [hnode] at h
    cases t1 with
    | nil => cases h
    | cons x t1 =>
      have h := (List.cons.inj h).2
      by_cases hR : n.2 = false ∧ e ∈ R
      · rw [edgeEv, if_pos hR] at h
        cases t1 with
        | nil => cases h
        | cons y t1 =>
          obtain ⟨h1, h2⟩ := List.cons.inj h
          exact ⟨(ih t1 t2 h2).1, .inr (by rw [← h1]; simp)⟩
      · rw [edgeEv, if_neg hR] at h
        obtain ⟨i1, i2⟩ := ih t1 t2 h
        refine ⟨i1, ?_⟩
        rcases i2 with i2 | i2
        · left
          cases hn : n.2 with
          | true => rfl
          | false =>
            rw [hl.dest, hn, if_pos rfl, if_neg (fun h => hR ⟨hn, h⟩)] at i2
            cases i2
        · exact .inr (by simp [i2])

theorem exc_before (hl : LowFacts co f s L R reach cs) {X : List Blk}
    {n n' : PNode} {es : List Edge}
    (hw : CopyWalk co.targets Flow L.dest n es n') (hn : n.2 = false)
    (hb : SafeReach co.targets (stopAt co s) (co.entry f) n.1) (hs : n.1 ∉ s.unsafeBlocks)
    (hc : ∀ es1 e es2, es = es1 ++ e :: es2 → e.type = .catch → ∃ x ∈ es1, x.trg ∈ s.unsafeBlocks) :
    ∀ t1 b t2, traceFrom L.dest R [] X n es = t1 ++ .block b :: t2 → b ∈ s.unsafeBlocks →
      .push ∈ t1 := by
  induction hw with
  | nil n =>
    intro t1 b t2 h hbad
    have hm : Ev.block b ∈ traceFrom L.dest R [] X n [] := by rw [h]; simp
    simp only [traceFrom, nodeEv, hn, List.mem_append] at hm
    simp at hm
    exact absurd (hm ▸ hbad) hs
  | @cons n n' e es he hf hw ih =>
    intro t1 b t2 h hbad
    have hnode : nodeEv [] X n = [.block n.1] := by simp [nodeEv, hn]
    rw [traceFrom, hnode] at h
    cases t1 with
    | nil => cases h; exact absurd hbad hs
    | cons x t1 =>
      have h := (List.cons.inj h).2
      have hfo : Follow e := ⟨hf.1, hf.2, fun ht => by
        obtain ⟨x, hx, _⟩ := hc [] e es rfl ht
        cases hx⟩
      cases hst : stopAt co s e.trg with
      | true =>
        have hR : e ∈ R := (hl.redirect e).mpr ⟨n.1, hb, he, hfo, hst⟩
        rw [edgeEv, if_pos ⟨hn, hR⟩] at h
        cases t1 with
        | nil => cases h
        | cons y t1 => rw [← (List.cons.inj h).1]; simp
      | false =>
        have hR : e ∉ R := by
          intro h
          obtain ⟨_, _, _, _, h4⟩ := (hl.redirect e).mp h
          rw [hst] at h4; cases h4
        have hd : L.dest e n.2 = (e.trg, false) := by rw [hl.dest, hn, if_pos rfl, if_neg hR]
        rw [edgeEv, if_neg (fun h => hR h.2)] at h
        rw [hd] at ih h
        have hsafe : e.trg ∉ s.unsafeBlocks := by
          intro hu
          simp [stopAt, hu] at hst
        have := ih rfl (.step hb he hfo hst) hsafe (by
          intro es1 x es2 hx ht
          obtain ⟨y, hy, hyu⟩ := hc (e :: es1) x es2 (by rw [hx]; rfl) ht
          rcases List.mem_cons.mp hy with rfl | hy
          · exact absurd hyu hsafe
          · exact ⟨y, hy, hyu⟩) t1 b t2 h hbad
        exact List.mem_cons_of_mem _ this

end

/-- **C36, what holds.** With exceptions, a check is still the last thing executed and comes
after a push; and if exceptions occur only after an unsafe block, then no unsafe block is
executed before a push.  Missing: that the push is matched by a check, and exceptions thrown by
safe code to unsafe handlers; both are false. -/
theorem C36_exceptions_partial {fl : InstrFlags} {co : CodeObj} {f : Func} {s : FuncSummary}
    {L : Lowered} (hwf : WellFormed co f) (ha : fl.asserts = true)
    (hex : ∀ b ∈ co.exitBlocks f, ∀ e ∈ co.targets b, ¬ Flow e)
    (h : doLowering fl co f (some s) = some (some L)) {es : List Edge} {b' : Blk}
    (hw : Walk co.targets Flow (co.entry f) es b') :
    (∀ t1 t2, L.trace (co.entry f) es = t1 ++ .check :: t2 → t2 = [] ∧ .push ∈ t1) ∧
    ((∀ es1 e es2, es = es1 ++ e :: es2 → e.type = .catch → ∃ x ∈ es1, x.trg ∈ s.unsafeBlocks) →
      ∀ t1 b t2, L.trace (co.entry f) es = t1 ++ .block b :: t2 → b ∈ s.unsafeBlocks →
        .push ∈ t1) := by
  obtain ⟨c', hcw⟩ := C32_lift ha h hw false
  obtain ⟨r, reach, cs, _, _, _, hl⟩ := low_facts ha h
  obtain ⟨t, h1, h2⟩ := coalesce_trace hwf hl (L.pops.map Prod.fst) hcw (fun h => by cases h)
  have htr : L.trace (co.entry f) es =
      traceFrom L.dest r.redirect [] (L.pops.map Prod.fst) (co.entry f, false) es := by
    have hni : (co.entry f, false) ∉ cs.inst := fun h => by
      have := hl.coalesced.clone _ h
      cases this
    unfold Lowered.trace
    rw [hl.edges, hl.blocks, h1, h2]
    simp [nodeEv, hni]
  rw [htr]
  refine ⟨fun t1 t2 ht => ?_, fun hc => exc_before hl hcw rfl (.refl _) hl.entrySafe hc⟩
  obtain ⟨k1, k2⟩ := exc_last hl (fun b hb => hex b ((hl.pops b).mp hb).1) hcw t1 t2 ht
  exact ⟨k1, k2.resolve_left (by simp)⟩

/-! ## Totality -/

/-- Lowering is defined whenever the stack height at the beginning of a block is known if it is
known at the end of one of the blocks before it. -/
theorem C33_lowering_total {fl : InstrFlags} {co : CodeObj} {f : Func} (s : Option FuncSummary)
    (hwf : WellFormed co f)
    (hh : ∀ s', s = some s' → ∀ b ∈ co.blocks f, ∀ e ∈ co.targets b, Follow e →
      (s'.blockEndSPHeight.lookup (co.start b)).isSome = true →
      ∃ h, s'.blockEntrySPHeight.lookup (co.start e.trg) = some h) :
    ∃ r, doLowering fl co f s = some r := by
  cases s with
  | none => exact ⟨_, rfl⟩
  | some s =>
    simp only [doLowering]
    split
    · exact ⟨_, rfl⟩
    split
    · exact ⟨_, rfl⟩
    split
    · exact ⟨_, rfl⟩
    obtain ⟨r, hr⟩ := redirectEdges_total (stop := stopAt co s) ((co.blocks f).flatMap co.targets)
      (co.blocks f) (fun b hb e he => List.mem_flatMap.mpr ⟨b, hb, he⟩) hwf.closed
      (((co.blocks f).flatMap co.targets).length + 1) {} (co.entry f) hwf.entry
      (Nat.lt_succ_of_le (remaining_le _ _))
    rw [hr]
    simp only [bind, Option.bind]
    split
    · exact ⟨_, rfl⟩
    rename_i hheight
    split
    · exact ⟨_, rfl⟩
    have hR := mem_redirect_iff hr
    have hsafe : ∀ c, SafeReach co.targets (stopAt co s) (co.entry f) c → c ∈ co.blocks f := by
      intro c h
      induction h with
      | refl => exact hwf.entry
      | step _ h1 h2 _ ih => exact hwf.closed _ ih _ h1 h2
    have hRb : ∀ e ∈ r.redirect, e.trg ∈ co.blocks f := by
      intro e he
      obtain ⟨c, h1, h2, h3, _⟩ := (hR e).mp he
      exact hwf.closed _ (hsafe c h1) _ h2 h3
    obtain ⟨d1, hd1⟩ := cloneCFG_total fl.asserts (fun e _ => (e.trg, false)) hwf.closed
    obtain ⟨d2, hd2⟩ := redirectAll_total fl.asserts d1 hRb
    have hdest : ∀ e c, d2 e c = (e.trg, false) ∨ d2 e c = (e.trg, true) := by
      intro e c
      cases ha : fl.asserts with
      | true =>
        rw [ha] at hd1 hd2
        rw [redirectAll_dest hd2, cloneCFG_dest hd1]
        split
        · exact .inr rfl
        · split
          · exact .inr rfl
          · exact .inl rfl
      | false =>
        rw [ha] at hd1 hd2
        cases hd1; cases hd2
        exact .inl rfl
    let N : List PNode := (co.blocks f).flatMap fun b => [(b, false), (b, true)]
    have hN : ∀ n : PNode, n ∈ N ↔ n.1 ∈ co.blocks f := by
      rintro ⟨b, c⟩
      simp only [N, List.mem_flatMap, List.mem_cons, Prod.mk.injEq]
      constructor
      · rintro ⟨x, hx, ⟨rfl, _⟩ | ⟨rfl, _⟩ | h⟩
        · exact hx
        · exact hx
        · cases h
      · intro hb
        exact ⟨b, hb, by cases c <;> simp⟩
    have hNl : N.length = 2 * (co.blocks f).length := by
      simp only [N]
      induction co.blocks f with
      | nil => rfl
      | cons a l ih => simp [ih]; omega
    obtain ⟨reach, hre⟩ := reachable_total (targets := co.targets) (d := d2) N
      (by
        intro n hn e he hf
        rw [hN] at hn ⊢
        have := hwf.closed _ hn _ he hf.1
        rcases hdest e n.2 with h | h <;> (rw [h]; exact this))
      (2 * (co.blocks f).length + 1) [] (co.entry f, false) ((hN _).mpr hwf.entry)
      (by have := remaining_le N []; omega)
    have hco := coalesce_spec co f d2 reach r.redirect _ (fun e => List.mem_flatMap)
    have hmap : ∀ {α β : Type} (g : α → Option β) (l : List α), (∀ x ∈ l, ∃ y, g x = some y) →
        ∃ l', l.mapM g = some l' := by
      intro α β g l
      induction l with
      | nil => intro _; exact ⟨[], rfl⟩
      | cons a l ih =>
        intro h
        obtain ⟨y, hy⟩ := h a (by simp)
        obtain ⟨l', hl'⟩ := ih fun x hx => h x (by simp [hx])
        exact ⟨y :: l', by rw [List.mapM_cons, hy, hl']; rfl⟩
    obtain ⟨ep, hep⟩ := hmap (edgePushOf fl co s (s.shouldUseRegisterFrame && !fl.disableRegFrame))
      (coalesce (sourcesOf co f d2) reach r.redirect).redirect (by
        intro e he
        have he := hco.sub e he
        cases hl : s.blockEndSPHeight.lookup (co.start e.src) with
        | none =>
          exact absurd (List.any_eq_true.mpr ⟨e, he, by simp [hl]⟩) hheight
        | some v =>
          unfold edgePushOf
          rw [hl]
          simp only [bind, Option.bind]
          split
          · exact ⟨_, rfl⟩
          · split <;> exact ⟨_, rfl⟩)
    obtain ⟨bp, hbp⟩ := hmap (blockPushOf fl co s (s.shouldUseRegisterFrame && !fl.disableRegFrame))
      (coalesce (sourcesOf co f d2) reach r.redirect).inst (by
        intro b hb
        obtain ⟨e, he, hd⟩ := hco.some b hb
        have hb1 : b.1 = e.trg := by rcases hdest e false with h | h <;> rw [← hd, h]
        obtain ⟨c, k1, k2, k3, _⟩ := (hR e).mp he
        obtain ⟨v, hv⟩ := hh s rfl c (hsafe c k1) e k2 k3 (by
          cases hl : s.blockEndSPHeight.lookup (co.start c) with
          | none =>
            exact absurd (List.any_eq_true.mpr ⟨e, he, by rw [hwf.src c e k2, hl]; rfl⟩) hheight
          | some v => rfl)
        rw [← hb1] at hv
        unfold blockPushOf
        rw [hv]
        simp only [bind, Option.bind]
        split
        · exact ⟨_, rfl⟩
        · split <;> exact ⟨_, rfl⟩)
    unfold lowerWith
    simp only [bind, Option.bind, hd1, hd2, hre, hep, hbp]
    exact ⟨_, rfl⟩

/-! ## Examples and counterexamples -/

/-- Blocks 0 (entry), 1 (safe), 2 and 3 (unsafe), 4 (exit); 0 branches to 1 and 2, 1 goes to 4,
2 and 3 form a loop which 3 leaves to 4. -/
def lowGraph : CodeObj where
  funcs := [0]
  addr := id
  entry := id
  blocks := fun _ => [0, 1, 2, 3, 4]
  exitBlocks := fun _ => [4]
  targets := fun b =>
    if b = 0 then [⟨0, 0, 1, .condTaken, false, false⟩, ⟨1, 0, 2, .condNotTaken, false, false⟩]
    else if b = 1 then [⟨2, 1, 4, .direct, false, false⟩]
    else if b = 2 then [⟨3, 2, 3, .fallthrough, false, false⟩]
    else if b = 3 then [⟨4, 3, 2, .condTaken, false, false⟩, ⟨5, 3, 4, .condNotTaken, false, false⟩]
    else if b = 4 then [⟨6, 4, 0, .ret, false, true⟩]
    else []
  start := id
  last := id
  funcsAt := fun _ => []
  linkage := fun _ => none

/-- Summary for the graphs of this section. -/
def lowSum (u : List Blk) : FuncSummary :=
  { unsafeBlocks := u, safePaths := 1,
    blockEndSPHeight := [(0, 0), (1, 0), (2, 0), (3, 0), (4, 0)],
    blockEntrySPHeight := [(0, 0), (1, 0), (2, 0), (3, 0), (4, 0)] }

theorem lowGraph_wf : WellFormed lowGraph 0 where
  src b e he := by
    simp only [lowGraph] at he
    repeat' split at he
    all_goals simp_all
    all_goals (try rcases he with rfl | rfl) <;> rfl
  entry := by decide
  closed := by decide
  ret b e he ht := by
    simp only [lowGraph] at he
    repeat' split at he
    all_goals simp_all [Follow]
    all_goals (try rcases he with rfl | rfl) <;> simp_all

example : WellFormed lowGraph 0 ∧ PlainExits lowGraph 0 ∧
    ∃ L, doLowering {} lowGraph 0 (some (lowSum [2, 3])) = some (some L) ∧
      L.trace 0 [⟨1, 0, 2, .condNotTaken, false, false⟩, ⟨3, 2, 3, .fallthrough, false, false⟩,
        ⟨4, 3, 2, .condTaken, false, false⟩, ⟨3, 2, 3, .fallthrough, false, false⟩,
        ⟨5, 3, 4, .condNotTaken, false, false⟩] =
        [.block 0, .push, .block 2, .block 3, .block 2, .block 3, .block 4, .check] ∧
      L.trace 0 [⟨0, 0, 1, .condTaken, false, false⟩, ⟨2, 1, 4, .direct, false, false⟩] =
        [.block 0, .block 1, .block 4] :=
  ⟨lowGraph_wf, by unfold PlainExits; decide, _, rfl, by decide, by decide⟩

/-- Coalescing at work: with block 3 unsafe and reached from 0 and 1 the push moves into it. -/
example : ∃ L, doLowering {} { lowGraph with targets := fun b =>
      if b = 0 then [⟨0, 0, 1, .condTaken, false, false⟩, ⟨1, 0, 3, .condNotTaken, false, false⟩]
      else if b = 1 then [⟨2, 1, 3, .condTaken, false, false⟩, ⟨3, 1, 4, .condNotTaken, false, false⟩]
      else if b = 3 then [⟨4, 3, 4, .direct, false, false⟩] else [] } 0 (some (lowSum [3])) =
        some (some L) ∧
      L.edgePush = [] ∧ L.blockPush.map Prod.fst = [(3, true)] ∧
      L.trace 0 [⟨1, 0, 3, .condNotTaken, false, false⟩, ⟨4, 3, 4, .direct, false, false⟩] =
        [.block 0, .push, .block 3, .block 4, .check] :=
  ⟨_, rfl, by decide, by decide, by decide⟩

/-- **C33 is false with conditional tail calls.** Block 1 is unsafe and ends in a conditional
tail call, so it is an exit with a successor in the function: after one push the return address
is checked twice. -/
theorem C33_refuted : ∃ (co : CodeObj) (s : FuncSummary) (L : Lowered) (es : List Edge) (b' : Blk),
    doLowering {} co 0 (some s) = some (some L) ∧ Walk co.targets Follow (co.entry 0) es b' ∧
    b' ∈ co.exitBlocks 0 ∧ (L.trace (co.entry 0) es).count .push = 1 ∧
    (L.trace (co.entry 0) es).count .check = 2 := by
  refine ⟨{ lowGraph with
      blocks := fun _ => [0, 1, 2]
      exitBlocks := fun _ => [1, 2]
      targets := fun b =>
        if b = 0 then [⟨0, 0, 1, .condTaken, false, false⟩, ⟨1, 0, 2, .condNotTaken, false, false⟩]
        else if b = 1 then [⟨2, 1, 7, .condTaken, false, true⟩, ⟨3, 1, 2, .condNotTaken, false, false⟩]
        else [] },
    lowSum [1], _,
    [⟨0, 0, 1, .condTaken, false, false⟩, ⟨3, 1, 2, .condNotTaken, false, false⟩], 2, rfl,
    .cons (by decide) (by decide) (.cons (by decide) (by decide) (.nil _)), by decide, by decide,
    by decide⟩

/-- A function with a handler: block 1 throws to block 2. -/
def catchGraph : CodeObj :=
  { lowGraph with
    blocks := fun _ => [0, 1, 2, 3]
    exitBlocks := fun _ => [3]
    targets := fun b =>
      if b = 0 then [⟨0, 0, 1, .condTaken, false, false⟩, ⟨1, 0, 3, .condNotTaken, false, false⟩]
      else if b = 1 then [⟨2, 1, 2, .catch, false, false⟩, ⟨3, 1, 3, .direct, false, false⟩]
      else if b = 2 then [⟨4, 2, 3, .direct, false, false⟩]
      else [] }

/-- **C36 is false.** An exception thrown in the copy leads to the handler in the original: the
push is not matched by a check.  And an unsafe handler of a safe block runs without a push. -/
theorem C36_refuted :
    (∃ (s : FuncSummary) (L : Lowered) (es : List Edge),
      doLowering {} catchGraph 0 (some s) = some (some L) ∧
      Walk catchGraph.targets Flow (catchGraph.entry 0) es 3 ∧ 3 ∈ catchGraph.exitBlocks 0 ∧
      L.trace 0 es = [.block 0, .push, .block 1, .block 2, .block 3]) ∧
    (∃ (s : FuncSummary) (L : Lowered) (es : List Edge),
      doLowering {} catchGraph 0 (some s) = some (some L) ∧
      Walk catchGraph.targets Flow (catchGraph.entry 0) es 3 ∧ 2 ∈ s.unsafeBlocks ∧
      L.trace 0 es = [.block 0, .block 1, .block 2, .block 3]) :=
  ⟨⟨lowSum [1], _, [⟨0, 0, 1, .condTaken, false, false⟩, ⟨2, 1, 2, .catch, false, false⟩,
      ⟨4, 2, 3, .direct, false, false⟩], rfl,
      .cons (by decide) ⟨rfl, rfl⟩ (.cons (by decide) ⟨rfl, rfl⟩ (.cons (by decide) ⟨rfl, rfl⟩ (.nil _))),
      by decide, by decide⟩,
   ⟨lowSum [2], _, [⟨0, 0, 1, .condTaken, false, false⟩, ⟨2, 1, 2, .catch, false, false⟩,
      ⟨4, 2, 3, .direct, false, false⟩], rfl,
      .cons (by decide) ⟨rfl, rfl⟩ (.cons (by decide) ⟨rfl, rfl⟩ (.cons (by decide) ⟨rfl, rfl⟩ (.nil _))),
      by decide, by decide⟩⟩

/-! ## C54: assertions -/

theorem no_copy_no_check (R : List Edge) (P : List PNode) (X : List Blk) (es : List Edge) (b : Blk) :
    .check ∉ traceFrom (fun e _ => (e.trg, false)) R P X (b, false) es := by
  induction es generalizing b with
  | nil => simp [traceFrom, nodeEv]
  | cons e es ih =>
    simp only [traceFrom, List.mem_append, not_or]
    exact ⟨⟨by simp [nodeEv], by simp [edgeEv]⟩, ih e.trg⟩

/-- **C54.** With assertions disabled (`NDEBUG`) the edges are not redirected, because the calls
doing it are arguments of `assert`: the lowered function never checks anything. -/
theorem C54_no_assertions {fl : InstrFlags} {co : CodeObj} {f : Func} {s : FuncSummary} {L : Lowered}
    (ha : fl.asserts = false) (h : doLowering fl co f (some s) = some (some L)) (es : List Edge) :
    .check ∉ L.trace (co.entry f) es := by
  have hd : L.dest = fun e _ => (e.trg, false) := by
    simp only [doLowering] at h
    repeat' (split at h; · cases h)
    cases hr : redirectEdges co.targets (stopAt co s) (((co.blocks f).flatMap co.targets).length + 1) {}
        (co.entry f) with
    | none => rw [hr] at h; cases h
    | some r =>
      rw [hr] at h
      simp only [bind, Option.bind] at h
      split at h
      · cases h
      split at h
      · cases h
      cases hL : lowerWith fl co f s r.redirect with
      | none => rw [hL] at h; cases h
      | some L' =>
        rw [hL] at h
        cases h
        unfold lowerWith at hL
        rw [ha] at hL
        simp only [cloneCFG, redirectAll, bind, Option.bind, Bool.false_eq_true, if_false] at hL
        split at hL
        · cases hL
        · dsimp only at hL
          split at hL
          · cases hL
          · dsimp only at hL
            split at hL
            · cases hL
            · cases hL; rfl
  unfold Lowered.trace
  rw [hd]
  exact no_copy_no_check _ _ _ _ _

/-- With assertions disabled an unsafe path pushes and never pops. -/
example : ∃ L, doLowering { asserts := false } lowGraph 0 (some (lowSum [2, 3])) = some (some L) ∧
    L.trace 0 [⟨1, 0, 2, .condNotTaken, false, false⟩, ⟨3, 2, 3, .fallthrough, false, false⟩,
      ⟨5, 3, 4, .condNotTaken, false, false⟩] =
      [.block 0, .push, .block 2, .block 3, .block 4] :=
  ⟨_, rfl, by decide⟩

end Verif
