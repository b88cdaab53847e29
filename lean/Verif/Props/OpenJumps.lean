import Verif.OpenJumps
import Verif.Props.FullMode

/-!
# C97: protection of programs with jumps which the parser does not understand
-/

namespace Verif

section
variable {bad bad' noCall noCall' : Blk → Prop} {fin fin' : Prop}

theorem aft_mono (hb : ∀ b, bad' b → bad b) {t : List Ev} (h : Aft bad t) : Aft bad' t := by
  induction t with
  | nil => trivial
  | cons x t ih =>
    cases x with
    | block b => exact ⟨fun hx => h.1 (hb b hx), ih h.2⟩
    | push => exact h.elim
    | check => exact h.elim

theorem mid_mono (hb : ∀ b, bad' b → bad b) (hn : ∀ b, noCall b → noCall' b) (hf : fin' → fin)
    {o : Option Blk} {t : List Ev} (h : Mid bad noCall fin o t) : Mid bad' noCall' fin' o t := by
  induction t generalizing o with
  | nil => exact fun hx => h (hf hx)
  | cons x t ih =>
    cases x with
    | block b => exact ih h
    | push => exact h.elim
    | check => exact ⟨fun b e => hn b (h.1 b e), aft_mono hb h.2⟩

theorem pre_mono (hb : ∀ b, bad' b → bad b) (hn : ∀ b, noCall b → noCall' b) (hf : fin' → fin)
    {o : Option Blk} {t : List Ev} (h : Pre bad noCall fin o t) : Pre bad' noCall' fin' o t := by
  induction t generalizing o with
  | nil => trivial
  | cons x t ih =>
    cases x with
    | block b => exact ⟨fun hx => h.1 (hb b hx), ih h.2⟩
    | push => exact mid_mono hb hn hf h
    | check => exact h.elim

end

/-! ## The code with the missing edges -/

section
variable {co : CodeObj} {info : StackInfo} {lands : Blk → List Edge}

theorem mem_opened {b : Blk} {e : Edge} :
    e ∈ (opened co lands).targets b ↔ e ∈ co.targets b ∨ e ∈ lands b := List.mem_append

theorem opened_nonret (hl : LandsOk co lands) (b : Blk) :
    isNonreturningCall ((opened co lands).targets b) = isNonreturningCall (co.targets b) := by
  have h1 : (lands b).any (fun e => e.type = .call) = false := by
    rw [List.any_eq_false]
    intro e he
    simp [hl.type b e he]
  have h2 : (lands b).any (fun e => e.type = .callFt) = false := by
    rw [List.any_eq_false]
    intro e he
    simp [hl.type b e he]
  unfold isNonreturningCall
  rw [show (opened co lands).targets b = co.targets b ++ lands b from rfl, List.any_append,
    List.any_append, h1, h2, Bool.or_false, Bool.or_false]

/-- A call, jump out of the function or return is an edge the parser has found. -/
theorem opened_old (hl : LandsOk co lands) {b : Blk} {e : Edge} (he : e ∈ (opened co lands).targets b)
    (h : e.type ≠ .indirect ∨ e.interproc = true) : e ∈ co.targets b := by
  rcases mem_opened.mp he with he | he
  · exact he
  · rcases h with h | h
    · exact absurd (hl.type b e he) h
    · rw [(hl.flow b e he).2] at h; cases h

theorem opened_exit (hl : LandsOk co lands) {f : Func} (hf : f ∈ co.funcs) {b : Blk}
    (hb : b ∈ co.exitBlocks f) : (opened co lands).targets b = co.targets b := by
  show co.targets b ++ lands b = _
  rw [hl.exits f hf b hb, List.append_nil]

theorem opened_func (hl : LandsOk co lands) {f : Func} (hf : f ∈ co.funcs) (h : FuncOk co f) :
    FuncOk (opened co lands) f where
  wf :=
    { src := fun b e he => (mem_opened.mp he).elim (h.wf.src b e) (hl.src b e)
      entry := h.wf.entry
      closed := fun b hb e he hfo =>
        (mem_opened.mp he).elim (fun he => h.wf.closed b hb e he hfo) fun he => (hl.inside f hf b hb e he).1
      ret := fun b e he ht => h.wf.ret b e (opened_old hl he (.inl (by simp [ht]))) ht }
  exits b hb e he := h.exits b hb e (by rw [← opened_exit hl hf hb]; exact he)
  nodup := h.nodup
  after b hb e he ht := h.after b hb e (opened_old hl he (.inl (by simp [ht]))) ht
  resolved b hb e he ht hs := h.resolved b hb e (opened_old hl he (.inl (by simp [ht]))) ht hs
  exitIn := h.exitIn

theorem opened_danger (hl : LandsOk co lands) (b : Blk) :
    DangerBlock (opened co lands) info b ↔ DangerBlock co info b := by
  unfold DangerBlock
  refine or_congr Iff.rfl ⟨?_, ?_⟩
  · rintro ⟨e, he, hd⟩
    exact ⟨e, opened_old hl he (.inl (by simp [hd.1])), hd⟩
  · rintro ⟨e, he, hd⟩
    exact ⟨e, mem_opened.mpr (.inl he), hd⟩

theorem opened_bad (hl : LandsOk co lands) {wr : Func → Prop} (b : Blk) :
    BadBlock (opened co lands) info wr b ↔ BadBlock co info wr b := by
  unfold BadBlock
  rw [opened_danger hl]
  refine or_congr Iff.rfl ⟨?_, ?_⟩
  · rintro ⟨e, he, g, hd, hw⟩
    exact ⟨e, opened_old hl he (.inl (by simp [hd.1])), g, hd, hw⟩
  · rintro ⟨e, he, g, hd, hw⟩
    exact ⟨e, mem_opened.mpr (.inl he), g, hd, hw⟩

theorem opened_known (hl : LandsOk co lands) {b : Blk}
    (h : ∀ e ∈ co.targets b, ¬ UnknownJump co e) :
    ∀ e ∈ (opened co lands).targets b, ¬ UnknownJump (opened co lands) e := fun e he hu =>
  h e (opened_old hl he (.inr hu.1.1)) hu

/-- In a function without such jumps nothing is missing. -/
theorem opened_walk {f : Func} (hno : ∀ b ∈ co.blocks f, lands b = []) {ok : Edge → Prop}
    (hcl : ∀ b ∈ co.blocks f, ∀ e ∈ co.targets b, ok e → e.trg ∈ co.blocks f) {b b' : Blk}
    {es : List Edge} (hw : Walk (opened co lands).targets ok b es b') (hb : b ∈ co.blocks f) :
    Walk co.targets ok b es b' := by
  induction hw with
  | nil b => exact .nil _
  | @cons b b' e es he hok _ ih =>
    have he' : e ∈ co.targets b := by
      rcases mem_opened.mp he with h | h
      · exact h
      · rw [hno b hb] at h; cases h
    exact .cons he' hok (ih (hcl b hb e he' hok))

end

/-! ## Light mode -/

section
variable {fl : InstrFlags} {skip : List Nat} {co : CodeObj} {info : StackInfo} {R : Func → RegFacts}
  {T : Sums} {bf : Func → BFunc} {plan : Func → Plan} {lands : Blk → List Edge}

/-- Functions with such jumps are neither lowered nor given a fast path. -/
def OpenPlans (co : CodeObj) (plan : Func → Plan) : Prop :=
  ∀ f ∈ co.funcs, (∃ b ∈ co.blocks f, HasOpenJump co b) →
    (plan f).kind ≠ .lowered ∧ (plan f).kind ≠ .fastPath

/-- The closure of a function under edges, with the missing ones. -/
theorem opened_closed (hl : LandsOk co lands) {f : Func} (hf : f ∈ co.funcs) {ok : Edge → Prop}
    (hcl : ∀ b ∈ co.blocks f, ∀ e ∈ co.targets b, ok e → e.trg ∈ co.blocks f) :
    ∀ b ∈ co.blocks f, ∀ e ∈ (opened co lands).targets b, ok e → e.trg ∈ co.blocks f :=
  fun b hb e he hok => (mem_opened.mp he).elim (fun h => hcl b hb e h hok) fun h =>
    (hl.inside f hf b hb e h).1

/-- Everything a function executes has the right shape, if it has without the missing edges. -/
theorem opened_shape (hb : Built fl skip co info R T bf plan) (hl : LandsOk co lands)
    (hop : OpenPlans co plan) {f : Func}
    (hf : f ∈ co.funcs) (hnr : CallsCovered T f) (hleft : LeftOk skip co T bf f)
    (hst : ¬ staysOf bf f) {ok : Edge → Prop}
    (hcl : ∀ b ∈ co.blocks f, ∀ e ∈ co.targets b, ok e → e.trg ∈ co.blocks f)
    (hex : ∀ b ∈ co.exitBlocks f, isNonreturningCall (co.targets b) = false →
      ∀ e ∈ co.targets b, ¬ ok e)
    (hpre : ∀ es b', Walk co.targets ok (co.entry f) es b' →
      RightShape co info (Wr T) f b' ((plan f).trace (co.entry f) es))
    {es : List Edge} {b' : Blk}
    (hw : Walk (opened co lands).targets ok (co.entry f) es b') :
    RightShape (opened co lands) info (Wr T) f b' ((plan f).trace (co.entry f) es) ∧
    ∀ x, .block x ∈ (plan f).trace (co.entry f) es → x ∈ co.blocks f := by
  have hok := hb.func f hf
  have hok' := opened_func hl hf hok
  have hj := analyse_judged hb.code hb.sums
  have hv := hb.view f hf
  by_cases hno : ∀ b ∈ co.blocks f, lands b = []
  · have hw' := opened_walk hno hcl hw hok.wf.entry
    refine ⟨pre_mono (fun b h => (opened_bad hl b).mp h) (fun b h e he ht => ?_) (fun h => ?_)
      (hpre _ _ hw'), fun x hx => plan_blocks hb hf hcl hw' hx⟩
    · exact h e (opened_old hl he (.inl (by simp [ht]))) ht
    · rw [← opened_nonret hl]; exact h
  · have hopen : ∃ b ∈ co.blocks f, HasOpenJump co b := by
      refine Classical.byContradiction fun hn => hno fun b hbm => ?_
      cases hlb : lands b with
      | nil => rfl
      | cons e l => exact absurd ⟨b, hbm, hl.jump b e (by rw [hlb]; simp)⟩ hn
    obtain ⟨k1, k2⟩ := hop f hf hopen
    have hin := walk_blocks (co := opened co lands) (opened_closed hl hf hcl) hw hok.wf.entry
    have hskip : (T f).writes = false →
        RightShape (opened co lands) info (Wr T) f b' (Plan.skipped.trace (co.entry f) es) := by
      intro hsf
      have := pre_blocks (bad := BadBlock (opened co lands) info (Wr T))
        (noCall := fun b => ∀ e ∈ (opened co lands).targets b, e.type ≠ .call)
        (fin := b' ∈ co.exitBlocks f ∧ isNonreturningCall ((opened co lands).targets b') = false)
        (o := none) (r := []) (bs := visits (co.entry f) es) (fun b hbm hbad => by
          have := bad_writes hj hf hnr (hin b hbm) ((opened_bad hl b).mp hbad)
          rw [hsf] at this
          cases this) trivial
      rwa [List.append_nil] at this
    have hskipB : ∀ x, .block x ∈ Plan.skipped.trace (co.entry f) es → x ∈ co.blocks f := by
      intro x hx
      obtain ⟨y, hy, e⟩ := List.mem_map.mp hx
      cases e
      exact hin x hy
    have hout' : LeftOut skip (bf f) → (T f).writes = false := fun h => by
      cases hw : (T f).writes with
      | false => rfl
      | true => exact absurd (hleft.unsafe_stays h hw) hst
    rcases hb.cases hf with ⟨h, hp⟩ | ⟨ws, an, st, st', han, hplan⟩
    · rw [hp]
      exact ⟨hskip (hout' (.inl (h.resolve_left hst))), hskipB⟩
    have hsum : summaryOf fl an (bf f) = some (T f) := by
      unfold summaryOf
      rw [if_pos hb.light, hv.base, han]
      rfl
    have h40 := (C40_strategy hplan).1 hb.light
    rw [hsum] at h40
    have hpoint : Pre (BadBlock (opened co lands) info (Wr T))
        (fun b => ∀ e ∈ (opened co lands).targets b, e.type ≠ .call)
        (b' ∈ co.exitBlocks f ∧ isNonreturningCall ((opened co lands).targets b') = false) none
        (pointTrace [co.entry f]
          ((bf f).exitPoints.filter fun b => !isNonreturningCall (co.targets b)) (co.entry f) es) := by
      unfold pointTrace
      rw [show [co.entry f].count (co.entry f) = 1 by simp]
      refine point_mid (co := opened co lands) (f := f) (fun b => ?_)
        (fun b hbx h => ?_)
        (fun b h1 h2 => exit_noCall hok' h1 h2) hw _
      · rw [hv.exits, filter_count hok.nodup, opened_nonret hl]
        by_cases h : b ∈ co.exitBlocks f ∧ isNonreturningCall (co.targets b) = false <;> simp [opened, h]
      · rw [opened_exit hl hf hbx] at h ⊢
        exact hex b hbx h
    by_cases hk : (plan f).kind = .skipped
    · have hsafe := h40.1.mp hk
      have hplan : plan f = .skipped := by
        cases hp : plan f <;> rw [hp] at hk <;> first | rfl | cases hk
      rw [hplan]
      refine ⟨hskip ?_, hskipB⟩
      rcases hsafe.2 with ⟨s, h1, h2⟩ | h
      · cases h1
        rw [hj.safe f] at h2
        simpa using h2
      · exact hout' (.inr h)
    · have hst := h40.2 hk
      cases hp : plan f with
      | skipped => rw [hp] at hk; exact absurd rfl hk
      | full a c => rw [hp] at hst; cases hst
      | lowered L => rw [hp] at k1; exact absurd rfl k1
      | fastPath p c => rw [hp] at k2; exact absurd rfl k2
      | regFrame a c =>
        rw [hp] at hst
        refine ⟨?_, fun x hx => hin x (point_blocks _ _ _ _ _ hx)⟩
        cases hst
        rw [hv.entries]
        exact hpoint
      | entryExit pushes checks =>
        rw [hp] at hst
        refine ⟨?_, fun x hx => hin x (point_blocks _ _ _ _ _ hx)⟩
        cases hst with
        | entryExit _ _ h3 h4 =>
          have h3' := h3 (fun b hbe x hx => by
            rw [hv.cfgEntries] at hbe
            rw [hv.entries] at hx
            cases hbe
            simpa using hx)
          change Pre _ _ _ _ (pointTrace _ _ _ _)
          rw [h3', h4, hv.entries]
          exact hpoint

/-- The conditions of `Sound.protected`, along the edges which satisfy `ok`. -/
theorem opened_sound_on (hb : Built fl skip co info R T bf plan) (hl : LandsOk co lands)
    (hop : OpenPlans co plan) (hnr : ∀ f ∈ co.funcs, CallsCovered T f)
    (htail : ∀ f ∈ co.funcs, TailsOk co T f) (hleft : ∀ f ∈ co.funcs, LeftOk skip co T bf f)
    {ok : Edge → Prop}
    (hcl : ∀ f ∈ co.funcs, ∀ b ∈ co.blocks f, ∀ e ∈ co.targets b, ok e → e.trg ∈ co.blocks f)
    (hex : ∀ f ∈ co.funcs, ∀ b ∈ co.exitBlocks f, isNonreturningCall (co.targets b) = false →
      ∀ e ∈ co.targets b, ¬ ok e)
    (hpre : ∀ f ∈ co.funcs, ¬ staysOf bf f → ∀ es b', Walk co.targets ok (co.entry f) es b' →
      RightShape co info (Wr T) f b' ((plan f).trace (co.entry f) es)) :
    Sound (semOn ok (opened co lands) plan info (inRegOf fl T) (staysOf bf)) (Wr T) := by
  have hsh := fun f hf hst es b' hw => opened_shape hb hl hop hf (hnr f hf) (hleft f hf) hst (hcl f hf)
    (hex f hf) (hpre f hf hst) (es := es) (b' := b') hw
  refine shape_sound (co := opened co lands) (fun f hf => opened_func hl hf (hb.func f hf))
    (fun f hf b hbm h => bad_writes (analyse_judged hb.code hb.sums) hf (hnr f hf) hbm
      ((opened_bad hl b).mp h))
    (fun f hf b hbx => opened_known hl ((htail f hf).known b hbx))
    (fun f hf b hbx e he g hg hj => ?_)
    (fun f hf hs => hb.left f hf (.inl hs))
    (fun f hf hr b hbm e he hc =>
      inReg_noCall hb hf hr b hbm e (opened_old hl he (.inl (by simp [hc]))) hc)
    (fun f hf es b' hw x hx => ?_)
    (fun f hf hst es b' hw => (hsh f hf hst es b' hw).1)
  · rw [opened_exit hl hf hbx] at he
    exact ⟨(htail f hf).covered b hbx e he g hg hj,
      fun hs => (hleft f hf).jumps hs b hbx e he g hg hj⟩
  · by_cases hst : staysOf bf f
    · rw [hb.left f hf (.inl hst)] at hx
      obtain ⟨y, hy, e⟩ := List.mem_map.mp hx
      cases e
      exact walk_blocks (co := opened co lands) (opened_closed hl hf (hcl f hf)) hw
        (hb.func f hf).wf.entry x hy
    · exact (hsh f hf hst es b' hw).2 x hx

/-- With exceptions. -/
theorem opened_sound_handlers (hb : Built fl skip co info R T bf plan) (hl : LandsOk co lands)
    (hop : OpenPlans co plan) (hcall : ∀ f ∈ co.funcs, NoCallAtCheck fl co (bf f))
    (hnr : ∀ f ∈ co.funcs, CallsCovered T f) (htail : ∀ f ∈ co.funcs, TailsOk co T f)
    (hleft : ∀ f ∈ co.funcs, LeftOk skip co T bf f) (hh : ∀ f ∈ co.funcs, HandlersOk co (bf f) f)
    (hc : ∀ f ∈ co.funcs, ∀ L, doLowering fl co f (some (T f)) = some (some L) → CleanupOnly co T f) :
    Sound (semOn Flow (opened co lands) plan info (inRegOf fl T) (staysOf bf)) (Wr T) :=
  opened_sound_on hb hl hop hnr htail hleft (fun f hf => (hh f hf).closed) (fun f hf => (hh f hf).exits)
    fun f hf hs _ _ hw =>
      plan_pre_on hb hcall hf (hnr f hf) (hleft f hf) hs (hh f hf).closed (hh f hf).exits (hh f hf).out hw
        fun L hlo => lowered_handlers (bf := bf) (analyse_judged hb.code hb.sums) hb.asserts hf
          (hb.func f hf) (hh f hf) (hc f hf L hlo) hlo hw

/-- **C97, what holds.** A program with jumps whose targets the parser did not find is protected, wherever
in their functions they lead, if the conditions of `C45` hold and functions with such jumps are neither
lowered nor given a fast path.  Missing: such functions, for which it is false; jumps to entries of
functions and to code which was not parsed. -/
theorem C97_protected_partial (hb : Built fl skip co info R T bf plan) (hl : LandsOk co lands)
    (hop : OpenPlans co plan) (hcall : ∀ f ∈ co.funcs, NoCallAtCheck fl co (bf f))
    (hnr : ∀ f ∈ co.funcs, CallsCovered T f) (htail : ∀ f ∈ co.funcs, TailsOk co T f)
    (hleft : ∀ f ∈ co.funcs, LeftOk skip co T bf f) (f : Func) :
    Protected (semOf (opened co lands) info plan (inRegOf fl T) (staysOf bf)) f :=
  (opened_sound_on hb hl hop hnr htail hleft (fun f hf => (hb.func f hf).wf.closed)
    (fun f hf b hbx _ => (hb.func f hf).exits b hbx)
    fun f hf hs _ _ hw => plan_pre hb hcall hf (hnr f hf) (hleft f hf) hs hw).protected f

/-- **C97 with exceptions.** The same with the conditions of `C86`.  Missing: as before and as in `C86`. -/
theorem C97_exceptions_partial (hb : Built fl skip co info R T bf plan) (hl : LandsOk co lands)
    (hop : OpenPlans co plan) (hcall : ∀ f ∈ co.funcs, NoCallAtCheck fl co (bf f))
    (hnr : ∀ f ∈ co.funcs, CallsCovered T f) (htail : ∀ f ∈ co.funcs, TailsOk co T f)
    (hleft : ∀ f ∈ co.funcs, LeftOk skip co T bf f) (hh : ∀ f ∈ co.funcs, HandlersOk co (bf f) f)
    (hc : ∀ f ∈ co.funcs, ∀ L, doLowering fl co f (some (T f)) = some (some L) → CleanupOnly co T f)
    (f : Func) : UProtected (semOn Flow (opened co lands) plan info (inRegOf fl T) (staysOf bf)) f :=
  (opened_sound_handlers hb hl hop hcall hnr htail hleft hh hc).uprotected f

/-- **C97 on the machine**, with several threads and exceptions: the same with the conditions of `C88`.
Missing: as before and as in `C88`. -/
theorem C97_threads_partial {B : Binary} {jf : JitFlags} {dead : Func → DeadNames} {frame : Func → Reg}
    (hB : BinaryOk B fl jf co info R bf dead frame)
    (hb : Built fl skip co info R T bf plan) (hl : LandsOk co lands)
    (hop : OpenPlans co plan) (hcall : ∀ f ∈ co.funcs, NoCallAtCheck fl co (bf f))
    (hnr : ∀ f ∈ co.funcs, CallsCovered T f) (htail : ∀ f ∈ co.funcs, TailsOk co T f)
    (hleft : ∀ f ∈ co.funcs, LeftOk skip co T bf f) (hh : ∀ f ∈ co.funcs, HandlersOk co (bf f) f)
    (hc : ∀ f ∈ co.funcs, ∀ L, doLowering fl co f (some (T f)) = some (some L) → CleanupOnly co T f)
    (g : Nat → W) :
    TeamProtected (semOn Flow (opened co lands) plan info (inRegOf fl T) (staysOf bf)) frame
      (B.Snippet jf (fun f => (T f).jit (dead f)) co plan) Needs g :=
  (opened_sound_handlers hb hl hop hcall hnr htail hleft hh hc).team (fun _ _ _ _ _ _ ht h =>
    snippets_fit hB hb hcall (And.left (b := ∃ _, _) ht) h) g

end

/-! ## Full mode -/

section
variable {fl : InstrFlags} {skip : List Nat} {co : CodeObj} {info : StackInfo}
  {bf : Func → BFunc} {plan : Func → Plan} {lands : Blk → List Edge}

/-- In full mode the missing edges make no difference to what the tool inserts. -/
theorem BuiltFull.opened (hb : BuiltFull fl skip co bf plan) (hl : LandsOk co lands) :
    BuiltFull fl skip (opened co lands) bf plan where
  full := hb.full
  func f hf := opened_func hl hf (hb.func f hf)
  entries := hb.entries
  exits := hb.exits
  left := hb.left
  plans f hf h1 h2 := by
    obtain ⟨an, st, st', h⟩ := hb.plans f hf h1 h2
    refine ⟨an, st, st', ?_⟩
    unfold instrumentFunction at h ⊢
    rw [if_neg hb.full] at h ⊢
    rw [← h]
    have : (fun b => !isNonreturningCall ((Verif.opened co lands).targets b)) =
        fun b => !isNonreturningCall (co.targets b) := funext fun b => by rw [opened_nonret hl]
    simp only [insertExits, this]

theorem opened_risky (hl : LandsOk co lands) {f : Func} (h : Risky (opened co lands) info f) :
    Risky co info f := by
  induction h with
  | block hb hd => exact .block hb ((opened_danger hl _).mp hd)
  | call hb he hd _ ih => exact .call hb (opened_old hl he (.inl (by simp [hd.1]))) hd ih
  | jump hb he hd _ ih => exact .jump hb (opened_old hl he (.inr hd.1.1)) hd ih

theorem FullOk.opened {f : Func} (h : FullOk co info bf f) (hl : LandsOk co lands) :
    FullOk (opened co lands) info bf f where
  known b hbx := opened_known hl (h.known b hbx)
  outside hr hk := h.outside hr (opened_risky hl hk)
  jumps hn b hbx e he g hg hj := h.jumps hn b hbx e (opened_old hl he (.inr hj.1.1)) g hg hj

/-- **C97 in full mode.** The program is protected wherever in their functions such jumps lead, if the
conditions of `C89` hold.  Missing: as in `C89`, jumps to entries of functions and to code which was not
parsed. -/
theorem C97_full_partial (hb : BuiltFull fl skip co bf plan) (hl : LandsOk co lands)
    (hok : ∀ f ∈ co.funcs, FullOk co info bf f) (f : Func) :
    Protected (semOf (opened co lands) info plan (fun _ => False) (staysOf bf)) f :=
  C89_protected_partial (hb.opened hl) (fun f hf => (hok f hf).opened hl) f

end

end Verif
