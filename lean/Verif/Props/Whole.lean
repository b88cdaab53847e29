import Verif.Whole
import Verif.Props.Program

/-!
# C45, C58, C59: whole programs
-/

namespace Verif

/-! ## Shapes of traces -/

section
variable (bad noCall : Blk → Prop) (fin : Prop)

/-- After the check: no bad block. -/
def Aft : List Ev → Prop
  | [] => True
  | .block b :: t => ¬ bad b ∧ Aft t
  | _ :: _ => False

/-- Between push and check; `o` is the last block.  `fin`: the function is finished. -/
def Mid : Option Blk → List Ev → Prop
  | _, [] => ¬ fin
  | _, .block b :: t => Mid (some b) t
  | o, .check :: t => (∀ b, o = some b → noCall b) ∧ Aft bad t
  | _, .push :: _ => False

/-- Before the push. -/
def Pre : Option Blk → List Ev → Prop
  | _, [] => True
  | _, .block b :: t => ¬ bad b ∧ Pre (some b) t
  | o, .push :: t => Mid bad noCall fin o t
  | _, .check :: _ => False

/-- The last block among the events. -/
def lastBlk : Option Blk → List Ev → Option Blk
  | o, [] => o
  | _, .block b :: t => lastBlk (some b) t
  | o, _ :: t => lastBlk o t

end

section
variable {bad noCall : Blk → Prop} {fin : Prop}

theorem lastBlk_append (o : Option Blk) (t t' : List Ev) :
    lastBlk o (t ++ t') = lastBlk (lastBlk o t) t' := by
  induction t generalizing o with
  | nil => rfl
  | cons x t ih => cases x <;> exact ih _

theorem aft_split {t r : List Ev} (h : Aft bad (t ++ r)) : Aft bad r := by
  induction t with
  | nil => exact h
  | cons x t ih =>
    cases x with
    | block b => exact ih h.2
    | push => exact h.elim
    | check => exact h.elim

theorem mid_split {t r : List Ev} {o : Option Blk} (h : Mid bad noCall fin o (t ++ r)) :
    (.push ∉ t ∧ .check ∉ t ∧ Mid bad noCall fin (lastBlk o t) r) ∨ (.check ∈ t ∧ Aft bad r) := by
  induction t generalizing o with
  | nil => exact .inl ⟨by simp, by simp, h⟩
  | cons x t ih =>
    cases x with
    | block b =>
      rcases ih h with ⟨h1, h2, h3⟩ | ⟨h1, h2⟩
      · exact .inl ⟨by simpa using h1, by simpa using h2, h3⟩
      · exact .inr ⟨by simp [h1], h2⟩
    | push => exact h.elim
    | check => exact .inr ⟨by simp, aft_split h.2⟩

theorem pre_split {t r : List Ev} {o : Option Blk} (h : Pre bad noCall fin o (t ++ r)) :
    (.push ∉ t ∧ .check ∉ t ∧ Pre bad noCall fin (lastBlk o t) r) ∨
    (.push ∈ t ∧ .check ∉ t ∧ Mid bad noCall fin (lastBlk o t) r) ∨
    (.push ∈ t ∧ .check ∈ t ∧ Aft bad r) := by
  induction t generalizing o with
  | nil => exact .inl ⟨by simp, by simp, h⟩
  | cons x t ih =>
    cases x with
    | block b =>
      rcases ih h.2 with ⟨h1, h2, h3⟩ | ⟨h1, h2, h3⟩ | ⟨h1, h2, h3⟩
      · exact .inl ⟨by simpa using h1, by simpa using h2, h3⟩
      · exact .inr (.inl ⟨by simp [h1], by simpa using h2, h3⟩)
      · exact .inr (.inr ⟨by simp [h1], by simp [h2], h3⟩)
    | push =>
      rcases mid_split h with ⟨_, h2, h3⟩ | ⟨h2, h3⟩
      · exact .inr (.inl ⟨by simp, by simpa using h2, h3⟩)
      · exact .inr (.inr ⟨by simp, by simp [h2], h3⟩)
    | check => exact h.elim

/-- A bad block is executed between push and check. -/
theorem pre_bad {t t' : List Ev} {o : Option Blk} {b : Blk} (h : Pre bad noCall fin o (t ++ .block b :: t'))
    (hb : bad b) : IsOpen (t ++ [.block b]) := by
  rcases pre_split h with ⟨_, _, h3⟩ | ⟨h1, h2, _⟩ | ⟨_, _, h3⟩
  · exact absurd hb h3.1
  · exact ⟨by simp [h1], by simp [h2]⟩
  · exact absurd hb h3.1

/-- The block before a check makes no call. -/
theorem pre_noCall {t t' : List Ev} {o : Option Blk} {b : Blk}
    (h : Pre bad noCall fin o (t ++ .block b :: .check :: t')) : noCall b := by
  rw [show t ++ .block b :: .check :: t' = (t ++ [.block b]) ++ .check :: t' by simp] at h
  rcases pre_split h with ⟨_, _, h3⟩ | ⟨_, _, h3⟩ | ⟨_, _, h3⟩
  · exact h3.elim
  · exact h3.1 b (by rw [lastBlk_append]; rfl)
  · exact h3.elim

theorem pre_push {t t' : List Ev} {o : Option Blk} (h : Pre bad noCall fin o (t ++ .push :: t')) :
    .push ∉ t ∧ .check ∉ t := by
  rcases pre_split h with ⟨h1, h2, _⟩ | ⟨_, _, h3⟩ | ⟨_, _, h3⟩
  · exact ⟨h1, h2⟩
  · exact h3.elim
  · exact h3.elim

theorem pre_check {t t' : List Ev} {o : Option Blk} (h : Pre bad noCall fin o (t ++ .check :: t')) :
    IsOpen t := by
  rcases pre_split h with ⟨_, _, h3⟩ | ⟨h1, h2, _⟩ | ⟨_, _, h3⟩
  · exact h3.elim
  · exact ⟨h1, h2⟩
  · exact h3.elim

theorem pre_fin {t : List Ev} {o : Option Blk} (h : Pre bad noCall fin o t) (hf : fin) : ¬ IsOpen t := by
  rw [← List.append_nil t] at h
  rintro ⟨hp, hc⟩
  rcases pre_split h with ⟨h1, _, _⟩ | ⟨_, _, h3⟩ | ⟨_, h2, _⟩
  · exact h1 hp
  · exact h3 hf
  · exact hc h2

theorem aft_blocks {bs : List Blk} (h : ∀ b ∈ bs, ¬ bad b) : Aft bad (bs.map .block) := by
  induction bs with
  | nil => trivial
  | cons b bs ih => exact ⟨h b (by simp), ih fun c hc => h c (by simp [hc])⟩

theorem mid_blocks {bs : List Blk} {o : Option Blk} {r : List Ev}
    (h : Mid bad noCall fin (lastBlk o (bs.map .block)) r) :
    Mid bad noCall fin o (bs.map .block ++ r) := by
  induction bs generalizing o with
  | nil => exact h
  | cons b bs ih => exact ih (o := some b) h

theorem pre_blocks {bs : List Blk} {o : Option Blk} {r : List Ev} (h : ∀ b ∈ bs, ¬ bad b)
    (hr : Pre bad noCall fin (lastBlk o (bs.map .block)) r) :
    Pre bad noCall fin o (bs.map .block ++ r) := by
  induction bs generalizing o with
  | nil => exact hr
  | cons b bs ih => exact ⟨h b (by simp), ih (o := some b) (fun c hc => h c (by simp [hc])) hr⟩

theorem lastBlk_map (o : Option Blk) (bs : List Blk) :
    lastBlk o (bs.map .block) = (bs.getLast?).or o := by
  induction bs generalizing o with
  | nil => rfl
  | cons b bs ih =>
    rw [List.map_cons, lastBlk, ih, List.getLast?_cons]
    cases bs.getLast? <;> rfl

theorem visits_last {targets : Blk → List Edge} {ok : Edge → Prop} {b b' : Blk} {es : List Edge}
    (hw : Walk targets ok b es b') : (visits b es).getLast? = some b' := by
  induction hw with
  | nil => rfl
  | @cons b b' e es _ _ _ ih =>
    rw [show visits b (e :: es) = b :: visits e.trg es from rfl, List.getLast?_cons, ih]
    rfl

theorem mid_weaken {fin' : Prop} (hw : fin' → fin) {o : Option Blk} {t : List Ev}
    (h : Mid bad noCall fin o t) : Mid bad noCall fin' o t := by
  induction t generalizing o with
  | nil => exact fun hf => h (hw hf)
  | cons x t ih =>
    cases x with
    | block b => exact ih h
    | push => exact h
    | check => exact h

theorem pre_weaken {fin' : Prop} (hw : fin' → fin) {o : Option Blk} {t : List Ev}
    (h : Pre bad noCall fin o t) : Pre bad noCall fin' o t := by
  induction t generalizing o with
  | nil => trivial
  | cons x t ih =>
    cases x with
    | block b => exact ⟨h.1, ih h.2⟩
    | push => exact mid_weaken hw h
    | check => exact h

end

/-! ## Checks at the exits -/

/-- Entry pushed, checks at the exits which return. -/
theorem point_mid {co : CodeObj} {f : Func} {checks : List Blk} {bad noCall : Blk → Prop}
    {ok : Edge → Prop}
    (hck : ∀ b, checks.count b =
      if b ∈ co.exitBlocks f ∧ isNonreturningCall (co.targets b) = false then 1 else 0)
    (hex : ∀ b ∈ co.exitBlocks f, isNonreturningCall (co.targets b) = false →
      ∀ e ∈ co.targets b, ¬ ok e)
    (hno : ∀ b ∈ co.exitBlocks f, isNonreturningCall (co.targets b) = false → noCall b)
    {b b' : Blk} {es : List Edge} (hw : Walk co.targets ok b es b') (o : Option Blk) :
    Mid bad noCall (b' ∈ co.exitBlocks f ∧ isNonreturningCall (co.targets b') = false) o
      ((visits b es).flatMap fun b => .block b :: List.replicate (checks.count b) .check) := by
  induction hw generalizing o with
  | nil b =>
    simp only [visits, List.map_nil, List.flatMap_cons, List.flatMap_nil, List.append_nil]
    rw [hck b]
    by_cases h : b ∈ co.exitBlocks f ∧ isNonreturningCall (co.targets b) = false
    · rw [if_pos h]
      exact ⟨fun c hc => by cases hc; exact hno b h.1 h.2, trivial⟩
    · rw [if_neg h]
      exact h
  | @cons b b' e es he hf hw ih =>
    rw [show visits b (e :: es) = b :: visits e.trg es from rfl, List.flatMap_cons, hck b,
      if_neg (fun h => hex b h.1 h.2 e he hf)]
    exact ih (some b)

theorem filter_count {l : List Blk} (hn : l.Nodup) (p : Blk → Bool) (b : Blk) :
    (l.filter p).count b = if b ∈ l ∧ p b = true then 1 else 0 := by
  split
  · rename_i h
    exact nodup_count (hn.filter _) (List.mem_filter.mpr h)
  · rename_i h
    rw [List.count_eq_zero]
    exact fun hm => h (List.mem_filter.mp hm)

/-! ## The fast path -/

section
variable {g : FlowGraph} {fe fx slow : Blk} {xs : List Blk} {bad noCall : Blk → Prop}

/-- The slow path, also if it is not finished. -/
theorem slow_mid (hok : g.Ok) (hpl : ∀ b ∈ g.exits, g.out b = [])
    (hf : FastFacts g fe fx slow xs) (hbx : ¬ bad fx) (hno : ∀ b ∈ xs, noCall b) {b b' : Blk}
    {es : List Edge} (hw : Walk g.out (fun _ => True) b es b') (hb : b ∈ g.blocks)
    (hbe : b ≠ fe) (hbf : b ≠ fx) :
    ∃ r, fpTrace slow xs b es = (if b = slow then [.push] else []) ++ r ∧
      ∀ o, Mid bad noCall (b' ∈ g.exits) o r := by
  have hcheck : ∀ c, xs.count c = 1 → noCall c := fun c hc =>
    hno c (List.count_pos_iff.mp (by omega))
  induction hw with
  | nil b =>
    obtain ⟨c1, _, c3, c4⟩ := check_count hok hpl hf b hb hbe
    refine ⟨.block b :: List.replicate (xs.count b) .check, rfl, fun o => ?_⟩
    by_cases hx : b ∈ g.exits
    · rw [c1 hx hbf]
      exact ⟨fun c hc => by cases hc; exact hcheck b (c1 hx hbf), trivial⟩
    · by_cases ht : ∃ e ∈ g.out b, e.trg = fx
      · obtain ⟨e, he, ht⟩ := ht
        rw [(c3 e he ht).1]
        exact ⟨fun c hc => by cases hc; exact hcheck b (c3 e he ht).1, trivial⟩
      · rw [c4 (fun e he h => ht ⟨e, he, h⟩) hx]
        exact hx
  | @cons b b' e es he _ hw ih =>
    obtain ⟨_, c2, c3, c4⟩ := check_count hok hpl hf b hb hbe
    have htb := hok.trg b hb e he
    have hnx : b ∉ g.exits := fun hx => by rw [hpl b hx] at he; cases he
    have hsrc := hok.src b e he
    have hte : e.trg ≠ fe := by
      intro h
      have : e ∈ g.inc fe := mem_inc.mpr ⟨⟨b, hb, he⟩, h⟩
      rw [hf.noInc] at this; cases this
    by_cases ht : e.trg = fx
    · obtain ⟨k1, _⟩ := c3 e he ht
      have hout : g.out e.trg = [] := by rw [ht]; exact hpl fx hf.exit
      cases hw with
      | nil =>
        have k2 := (check_count hok hpl hf e.trg htb hte).2.1 ht
        have hns : e.trg ≠ slow := fun h => hf.slowNotExit (h ▸ ht ▸ hf.exit)
        refine ⟨[.block b, .check, .block e.trg], ?_, fun o => ?_⟩
        · rw [fpTrace, fpTrace, fpTrace.fpNode, fpTrace.fpNode, k1, k2, if_neg hns]
          simp
        · exact ⟨fun c hc => by cases hc; exact hcheck b k1, by rw [ht]; exact hbx, trivial⟩
      | cons he' _ _ => rw [hout] at he'; cases he'
    · have hns : e.trg ≠ slow := by
        intro h
        obtain ⟨e0, he0, ht0⟩ := hf.toSlow
        have hfe : fe ∈ g.blocks := hok.entries fe (by rw [hf.entries]; simp)
        have m1 : e0 ∈ g.inc slow := mem_inc.mpr ⟨⟨fe, hfe, he0⟩, ht0⟩
        have m2 : e ∈ g.inc slow := mem_inc.mpr ⟨⟨b, hb, he⟩, h⟩
        match hi : g.inc slow, hf.oneInc with
        | [x], _ =>
          rw [hi] at m1 m2
          simp at m1 m2
          have := hok.src fe e0 he0
          rw [m1, ← m2, hsrc] at this
          exact hbe this
      have k : xs.count b = 0 := by
        refine c4 (fun e' he' ht' => ?_) hnx
        have := (c3 e' he' ht').2 e he
        exact ht (by rw [this]; exact ht')
      obtain ⟨r, i1, i2⟩ := ih htb hte ht
      refine ⟨.block b :: r, ?_, fun o => i2 (some b)⟩
      rw [fpTrace, fpTrace.fpNode, k, i1, if_neg hns]
      simp

/-- Fast path functions. -/
theorem fast_pre (hok : g.Ok) (hpl : ∀ b ∈ g.exits, g.out b = [])
    (hf : FastFacts g fe fx slow xs) (hbx : ¬ bad fx) (hbe : ¬ bad fe) (hno : ∀ b ∈ xs, noCall b)
    {b' : Blk} {es : List Edge} (hw : Walk g.out (fun _ => True) fe es b') :
    Pre bad noCall (b' ∈ g.exits) none (fpTrace slow xs fe es) := by
  have hfe : fe ∈ g.blocks := hok.entries fe (by rw [hf.entries]; simp)
  obtain ⟨e0, he0, ht0⟩ := hf.toSlow
  have hfs : fe ≠ slow := by
    intro h
    have : e0 ∈ g.inc fe := mem_inc.mpr ⟨⟨fe, hfe, he0⟩, by rw [ht0, h]⟩
    rw [hf.noInc] at this; cases this
  have hfnx : fe ∉ g.exits := fun hx => by rw [hpl fe hx] at he0; cases he0
  have hcount : xs.count fe = 0 := by
    obtain ⟨l, hl, rfl⟩ := hf.list
    obtain ⟨h1, _⟩ := slowExits_spec g fe _ l hl
    rw [List.count_append, List.count_eq_zero.mpr, List.count_eq_zero.mpr]
    · simp [hfnx]
    · rw [h1]; simp
  have hnode : fpTrace.fpNode slow xs fe = [.block fe] := by
    rw [fpTrace.fpNode, hcount, if_neg hfs]; rfl
  cases hw with
  | nil =>
    rw [fpTrace, hnode]
    exact ⟨hbe, trivial⟩
  | @cons _ _ e es he _ hw =>
    have htb := hok.trg fe hfe e he
    have hte : e.trg ≠ fe := by
      intro h
      have : e ∈ g.inc fe := mem_inc.mpr ⟨⟨fe, hfe, he⟩, h⟩
      rw [hf.noInc] at this; cases this
    rw [fpTrace, hnode]
    refine ⟨hbe, ?_⟩
    change Pre _ _ _ _ (fpTrace slow xs e.trg es)
    rcases hf.first e he with ht | ht
    · have hout : g.out e.trg = [] := by rw [ht]; exact hpl fx hf.exit
      cases hw with
      | nil =>
        have k2 := (check_count hok hpl hf e.trg htb hte).2.1 ht
        have hns : e.trg ≠ slow := fun h => hf.slowNotExit (h ▸ ht ▸ hf.exit)
        rw [fpTrace, fpTrace.fpNode, k2, if_neg hns]
        exact ⟨by rw [ht]; exact hbx, trivial⟩
      | cons he' _ _ => rw [hout] at he'; cases he'
    · have hbf : e.trg ≠ fx := fun h => hf.slowNotExit (ht ▸ h ▸ hf.exit)
      obtain ⟨r, i1, i2⟩ := slow_mid hok hpl hf hbx hno hw htb hte hbf
      rw [i1, if_pos ht]
      exact i2 _

end

/-! ## The assumptions -/

/-- Facts about the code of a function as Dyninst parses it, and what it may contain. -/
structure FuncOk (co : CodeObj) (f : Func) : Prop where
  wf : WellFormed co f
  /-- no conditional tail jumps -/
  exits : PlainExits co f
  nodup : (co.exitBlocks f).Nodup
  /-- a call is followed by a block of the function -/
  after : ∀ b ∈ co.blocks f, ∀ e ∈ co.targets b, e.type = .callFt → Follow e
  /-- a call with a target is of a library function or of a known function -/
  resolved : ∀ b ∈ co.blocks f, ∀ e ∈ co.targets b, e.type = .call → e.sink = false →
    (∃ n, LibCall co e n) ∨ ∃ g ∈ co.funcs, DirectCall co e g
  exitIn : ∀ b ∈ co.exitBlocks f, b ∈ co.blocks f

/-- BPatch shows the same function. -/
structure View (co : CodeObj) (info : StackInfo) (bf : BFunc) (f : Func) : Prop where
  func : bf.func = f
  base : bf.base = co.addr f
  entries : bf.entryPoints = [co.entry f]
  exits : bf.exitPoints = co.exitBlocks f
  cfgEntries : bf.cfg.entries = [co.entry f]
  cfgExits : ∀ b, b ∈ bf.cfg.exits ↔ b ∈ co.exitBlocks f
  out : ∀ b ∈ co.blocks f, ∀ e ∈ co.targets b, Follow e → e ∈ bf.cfg.out b
  ok : bf.cfg.Ok
  /-- exits other than calls which do not return have no successors -/
  plain : ∀ b ∈ bf.cfg.exits, (∀ e ∈ co.targets b, e.type ≠ .call) → bf.cfg.out b = []
  writes : ∀ b ∈ co.blocks f, ∀ i ∈ info.insns b, i.writesMemory = true → true ∈ bf.cfg.writes b
  /-- a block consisting of a return -/
  ret : ∀ b ∈ co.blocks f, bf.cfg.returns b = [true] →
    (∀ i ∈ info.insns b, i.frameSwitch = true) ∧ ∀ e ∈ co.targets b, e.type ≠ .call
  /-- a block that ends with a call does not branch -/
  callOut : ∀ b ∈ co.blocks f, ∀ e ∈ co.targets b, e.type = .call →
    ∀ x ∈ bf.cfg.out b, x.type ≠ .condTaken

/-- No call comes right before a check of the fast path. -/
def NoCallAtCheck (fl : InstrFlags) (co : CodeObj) (bf : BFunc) : Prop :=
  ∀ slow xs, checkFastPath fl.disableLowering bf.cfg = some (slow, xs) →
    ∀ b ∈ xs, ∀ e ∈ co.targets b, e.type ≠ .call

/-- Jumps out of the function lead to functions of the program (or trusted library functions),
and to functions which write unsafely only from such functions. -/
structure TailsOk (co : CodeObj) (T : Sums) (f : Func) : Prop where
  known : ∀ b ∈ co.exitBlocks f, ∀ e ∈ co.targets b, ¬ UnknownJump co e
  covered : ∀ b ∈ co.exitBlocks f, ∀ e ∈ co.targets b, ∀ g ∈ co.funcs, JumpTo co e g →
    (T g).writes = true → (T f).writes = true

/-- Functions which write unsafely are called only by such functions. -/
def CallsCovered (T : Sums) (f : Func) : Prop :=
  ∀ g ∈ (T f).callees, (T g).writes = true → (T f).writes = true

/-- Without recursion it is so. -/
theorem Judged.covered {co : CodeObj} {info : StackInfo} {T : Sums} (hj : Judged co info T) {f : Func}
    (hf : f ∈ co.funcs) (hnr : NoRecursion T f) : CallsCovered T f :=
  fun g hg hw => hj.callee f hf hnr g hg hw

/-- Functions left out although they may return: those of other sections than `.text`, and those on the
skip list. -/
def LeftOut (skip : List Nat) (bf : BFunc) : Prop :=
  bf.region ≠ ".text" ∨ bf.base ∈ skip

/-- What functions without pushes and checks must be like: functions left out which write unsafely do
not return, and what does not return leaves by jumps only to functions which do not return either. -/
structure LeftOk (skip : List Nat) (co : CodeObj) (T : Sums) (bf : Func → BFunc) (f : Func) : Prop where
  unsafe_stays : LeftOut skip (bf f) → (T f).writes = true → (bf f).noReturn = true
  jumps : (bf f).noReturn = true → ∀ b ∈ co.exitBlocks f, ∀ e ∈ co.targets b, ∀ g ∈ co.funcs,
    JumpTo co e g → (bf g).noReturn = true

/-- A program analysed and instrumented by the tool, in light mode with assertions compiled in and the
addresses of the skip list. -/
structure Built (fl : InstrFlags) (skip : List Nat) (co : CodeObj) (info : StackInfo) (R : Func → RegFacts) (T : Sums)
    (bf : Func → BFunc) (plan : Func → Plan) : Prop where
  code : CodeOk co
  sums : analyse co info R = some T
  light : fl.shadowStack = "light"
  asserts : fl.asserts = true
  func : ∀ f ∈ co.funcs, FuncOk co f
  view : ∀ f ∈ co.funcs, View co info (bf f) f
  left : ∀ f ∈ co.funcs, (bf f).noReturn = true ∨ (bf f).region ≠ ".text" → plan f = .skipped
  plans : ∀ f ∈ co.funcs, (bf f).noReturn = false → (bf f).region = ".text" →
    ∃ ws an st st', an (co.addr f) = some (T f, ws) ∧
      instrumentFunction fl skip co an (bf f) st = some (plan f, st')

theorem Built.cases {fl : InstrFlags} {skip : List Nat} {co : CodeObj} {info : StackInfo}
    {R : Func → RegFacts} {T : Sums} {bf : Func → BFunc} {plan : Func → Plan}
    (hb : Built fl skip co info R T bf plan) {f : Func} (hf : f ∈ co.funcs) :
    (((bf f).noReturn = true ∨ (bf f).region ≠ ".text") ∧ plan f = .skipped) ∨
    ∃ ws an st st', an (co.addr f) = some (T f, ws) ∧
      instrumentFunction fl skip co an (bf f) st = some (plan f, st') := by
  by_cases h : (bf f).noReturn = true ∨ (bf f).region ≠ ".text"
  · exact .inl ⟨h, hb.left f hf h⟩
  · refine .inr (hb.plans f hf ?_ ?_)
    · simpa using fun h' => h (.inl h')
    · exact Classical.byContradiction fun h' => h (.inr h')

/-- Without recursion all calls are covered. -/
theorem Built.covered {fl : InstrFlags} {skip : List Nat} {co : CodeObj} {info : StackInfo}
    {R : Func → RegFacts} {T : Sums} {bf : Func → BFunc} {plan : Func → Plan}
    (hb : Built fl skip co info R T bf plan) (hnr : ∀ f ∈ co.funcs, NoRecursion T f) :
    ∀ f ∈ co.funcs, CallsCovered T f :=
  fun f hf => (analyse_judged hb.code hb.sums).covered hf (hnr f hf)

/-- The functions which do not return. -/
def staysOf (bf : Func → BFunc) (f : Func) : Prop := (bf f).noReturn = true

/-- The functions which keep the return address in a register. -/
def inRegOf (fl : InstrFlags) (T : Sums) (f : Func) : Prop := useRegFrame fl (some (T f)) = true

/-! ## The theorem -/

section
variable {fl : InstrFlags} {skip : List Nat} {co : CodeObj} {info : StackInfo} {R : Func → RegFacts}
  {T : Sums} {bf : Func → BFunc} {plan : Func → Plan}

/-- Blocks during or at the end of which return addresses may be overwritten. -/
def BadBlock (co : CodeObj) (info : StackInfo) (wr : Func → Prop) (b : Blk) : Prop :=
  DangerBlock co info b ∨ ∃ e ∈ co.targets b, ∃ g, DirectCall co e g ∧ wr g

/-- The functions which write unsafely according to the tool. -/
abbrev Wr (T : Sums) : Func → Prop := fun f => (T f).writes = true

theorem bad_writes (hj : Judged co info T) {f : Func} (hf : f ∈ co.funcs) (hnr : CallsCovered T f)
    {b : Blk} (hb : b ∈ co.blocks f) (h : BadBlock co info (Wr T) b) : (T f).writes = true := by
  rcases h with h | ⟨e, he, g, hd, hw⟩
  · exact hj.danger f hf b hb h
  · exact hnr g (((hj.calls f hf).callees g).mpr ⟨b, e, ⟨hb, he⟩, hd⟩) hw

theorem walk_blocks {f : Func} {ok : Edge → Prop}
    (hcl : ∀ b ∈ co.blocks f, ∀ e ∈ co.targets b, ok e → e.trg ∈ co.blocks f) {b b' : Blk}
    {es : List Edge} (hw : Walk co.targets ok b es b') (hb : b ∈ co.blocks f) :
    ∀ x ∈ visits b es, x ∈ co.blocks f := by
  induction hw with
  | nil b => intro x hx; simp [visits] at hx; rw [hx]; exact hb
  | @cons b b' e es he hf _ ih =>
    intro x hx
    rcases List.mem_cons.mp hx with rfl | hx
    · exact hb
    · exact ih (hcl b hb e he hf) x hx

theorem walk_cfg {f : Func} {g : FlowGraph} {ok : Edge → Prop}
    (hcl : ∀ b ∈ co.blocks f, ∀ e ∈ co.targets b, ok e → e.trg ∈ co.blocks f)
    (hout : ∀ b ∈ co.blocks f, ∀ e ∈ co.targets b, ok e → e ∈ g.out b) {b b' : Blk}
    {es : List Edge} (hw : Walk co.targets ok b es b') (hb : b ∈ co.blocks f) :
    Walk g.out (fun _ => True) b es b' := by
  induction hw with
  | nil b => exact .nil _
  | @cons b b' e es he hf _ ih =>
    exact .cons (hout b hb e he hf) trivial (ih (hcl b hb e he hf))

/-- An exit that returns has no call. -/
theorem exit_noCall {f : Func} (hok : FuncOk co f) {b : Blk} (hb : b ∈ co.exitBlocks f)
    (hr : isNonreturningCall (co.targets b) = false) : ∀ e ∈ co.targets b, e.type ≠ .call := by
  intro e he hc
  have h1 : (co.targets b).any (fun e => e.type = .call) = true :=
    List.any_eq_true.mpr ⟨e, he, by simp [hc]⟩
  unfold isNonreturningCall at hr
  rw [h1, Bool.true_and, Bool.not_eq_false', List.any_eq_true] at hr
  obtain ⟨e', he', hty⟩ := hr
  exact hok.exits b hb e' he' (hok.after b (hok.exitIn b hb) e' he' (by simpa using hty))

/-- The right shape: nothing bad before the push or after the check, no call right before the
check, and no return between push and check. -/
abbrev RightShape (co : CodeObj) (info : StackInfo) (wr : Func → Prop) (f : Func) (b' : Blk)
    (t : List Ev) : Prop :=
  Pre (BadBlock co info wr) (fun b => ∀ e ∈ co.targets b, e.type ≠ .call)
    (b' ∈ co.exitBlocks f ∧ isNonreturningCall (co.targets b') = false) none t

/-- The unsafe blocks of a lowered function include all bad ones. -/
theorem low_marked (hj : Judged co info T) {f : Func} (hf : f ∈ co.funcs) {L : Lowered}
    (hl : doLowering fl co f (some (T f)) = some (some L)) :
    ∀ b ∈ co.blocks f, BadBlock co info (Wr T) b → b ∈ (T f).unsafeBlocks := by
  have hheight : (T f).blockEndSPHeight ≠ [] := by
    intro h
    unfold doLowering at hl
    dsimp only at hl
    split at hl
    · cases hl
    split at hl
    · cases hl
    rename_i hli
    simp [FuncSummary.lowerInstrumentation, h] at hli
  exact fun b hbm h => hj.marked f hf hheight b hbm h

/-- Lowered functions, without exceptions. -/
theorem lowered_pre (hj : Judged co info T) (ha : fl.asserts = true) {f : Func} (hf : f ∈ co.funcs)
    (hok : FuncOk co f) {L : Lowered} (hl : doLowering fl co f (some (T f)) = some (some L))
    {es : List Edge} {b' : Blk} (hw : Walk co.targets Follow (co.entry f) es b') :
    RightShape co info (Wr T) f b' (L.trace (co.entry f) es) := by
  have hin := walk_blocks hok.wf.closed hw hok.wf.entry
  have hbad := low_marked hj hf hl
  have hstop : ∀ b ∈ co.blocks f, stopAt co (T f) b = false → ¬ BadBlock co info (Wr T) b := by
    intro b hbm hs h
    have := hbad b hbm h
    simp [stopAt, this] at hs
  obtain ⟨hent, h1 | ⟨es1, e, es2, h1, h2, _, h4⟩⟩ := low_shape hok.wf hok.exits ha hl hw
  · have := pre_blocks (bad := BadBlock co info (Wr T))
      (noCall := fun b => ∀ e ∈ co.targets b, e.type ≠ .call)
      (fin := b' ∈ co.exitBlocks f ∧ isNonreturningCall (co.targets b') = false) (o := none)
      (r := []) (bs := visits (co.entry f) es) (fun b hbm => by
        rcases List.mem_cons.mp hbm with rfl | hb'
        · exact fun h => hent (hbad _ hok.wf.entry h)
        · obtain ⟨x, hx, rfl⟩ := List.mem_map.mp hb'
          exact hstop _ (hin _ hbm) (h1.1 x hx)) trivial
    rw [List.append_nil] at this
    rw [h1.2]
    exact this
  · rw [h4]
    have hvis : visits (co.entry f) es = visits (co.entry f) es1 ++ visits e.trg es2 := by
      simp [visits, h1]
    refine pre_blocks (fun b hbm => ?_) ?_
    · have hmem : b ∈ visits (co.entry f) es := by rw [hvis]; simp [hbm]
      rcases List.mem_cons.mp hbm with rfl | hb'
      · exact fun h => hent (hbad _ hok.wf.entry h)
      · obtain ⟨x, hx, rfl⟩ := List.mem_map.mp hb'
        exact hstop _ (hin _ hmem) (h2 x hx)
    · change Mid _ _ _ _ _
      refine mid_blocks ?_
      split
      · rename_i hfin
        refine ⟨fun b hlast => ?_, trivial⟩
        have hl2 := visits_last hw
        rw [hvis, List.getLast?_append] at hl2
        have hne : (visits e.trg es2).getLast? ≠ none := by simp [visits]
        rw [lastBlk_map] at hlast
        cases hg : (visits e.trg es2).getLast? with
        | none => exact absurd hg hne
        | some c =>
          rw [hg] at hl2 hlast
          have e1 : c = b' := by simpa using hl2
          have e2 : c = b := by simpa using hlast
          rw [← e2, e1]
          exact exit_noCall hok hfin.1 hfin.2
      · rename_i hfin
        exact hfin

/-- Everything a function with snippets executes has the right shape. -/
theorem plan_shape (hb : Built fl skip co info R T bf plan) (hcall : ∀ f ∈ co.funcs, NoCallAtCheck fl co (bf f))
    {f : Func} (hf : f ∈ co.funcs) (hne : plan f ≠ .skipped) {ok : Edge → Prop}
    (hcl : ∀ b ∈ co.blocks f, ∀ e ∈ co.targets b, ok e → e.trg ∈ co.blocks f)
    (hex : ∀ b ∈ co.exitBlocks f, isNonreturningCall (co.targets b) = false →
      ∀ e ∈ co.targets b, ¬ ok e)
    (hout : ∀ b ∈ co.blocks f, ∀ e ∈ co.targets b, ok e → e ∈ (bf f).cfg.out b)
    {es : List Edge} {b' : Blk} (hw : Walk co.targets ok (co.entry f) es b')
    (hlow : ∀ L, plan f = .lowered L → doLowering fl co f (some (T f)) = some (some L) →
      RightShape co info (Wr T) f b' (L.trace (co.entry f) es)) :
    RightShape co info (Wr T) f b' ((plan f).trace (co.entry f) es) := by
  have hok := hb.func f hf
  have hv := hb.view f hf
  obtain ⟨ws, an, st, st', han, hplan⟩ := (hb.cases hf).resolve_left fun h => hne h.2
  have hsum : summaryOf fl an (bf f) = some (T f) := by
    unfold summaryOf
    rw [if_pos hb.light, hv.base, han]
    rfl
  have h40 := (C40_strategy hplan).1 hb.light
  rw [hsum] at h40
  have hcount : ∀ b, ((bf f).exitPoints.filter fun b => !isNonreturningCall (co.targets b)).count b =
      if b ∈ co.exitBlocks f ∧ isNonreturningCall (co.targets b) = false then 1 else 0 := by
    intro b
    rw [hv.exits, filter_count hok.nodup]
    simp
  have hpoint : Pre (BadBlock co info (Wr T)) (fun b => ∀ e ∈ co.targets b, e.type ≠ .call)
      (b' ∈ co.exitBlocks f ∧ isNonreturningCall (co.targets b') = false) none
      (pointTrace [co.entry f]
        ((bf f).exitPoints.filter fun b => !isNonreturningCall (co.targets b)) (co.entry f) es) := by
    unfold pointTrace
    rw [show [co.entry f].count (co.entry f) = 1 by simp]
    exact point_mid hcount hex (fun b h1 h2 => exit_noCall hok h1 h2) hw _
  have hk : (plan f).kind ≠ .skipped := by
    intro hk
    refine hne ?_
    cases hp : plan f <;> rw [hp] at hk <;> first | rfl | cases hk
  have hst := h40.2 hk
  cases hp : plan f with
  | skipped => rw [hp] at hk; exact absurd rfl hk
  | full a c => rw [hp] at hst; cases hst
  | regFrame a c =>
    rw [hp] at hst
    cases hst
    rw [hv.entries]
    exact hpoint
  | entryExit pushes checks =>
    rw [hp] at hst
    cases hst with
    | entryExit _ _ h3 h4 =>
      have h3' := h3 (fun b hbe x hx => by
        rw [hv.cfgEntries] at hbe
        rw [hv.entries] at hx
        cases hbe
        simpa using hx)
      change Pre _ _ _ _ (pointTrace _ _ _ _)
      rw [h3', h4, hv.entries]
      exact hpoint
  | lowered L =>
    rw [hp] at hst
    cases hst with
    | lowered hl =>
      rw [hv.func] at hl
      exact hlow L hp hl
  | fastPath p checks =>
    rw [hp] at hst
    cases hst with
    | fastPath h1 h2 h3 h4 h5 =>
      obtain ⟨_, fe, fx, hfast⟩ := fast_facts h3
      have hfe : fe = co.entry f := by
        have := hfast.entries
        rw [hv.cfgEntries] at this
        simpa using this.symm
      subst hfe
      have hbe : ¬ BadBlock co info (Wr T) (co.entry f) := by
        have hnc : ∀ e ∈ co.targets (co.entry f), e.type ≠ .call := fun e he hc => by
          obtain ⟨x, hx, hty⟩ := hfast.taken
          exact hv.callOut _ hok.wf.entry e he hc x hx hty
        rintro ((⟨i, hi, hd⟩ | ⟨e, he, hty, _⟩) | ⟨e, he, g, hd, _⟩)
        · have := hfast.pure true (hv.writes _ hok.wf.entry i hi hd.2.1)
          cases this
        · exact hnc e he hty
        · exact hnc e he hd.1
      have hfx : fx ∈ co.blocks f := hok.exitIn fx ((hv.cfgExits fx).mp hfast.exit)
      have hbx : ¬ BadBlock co info (Wr T) fx := by
        obtain ⟨r1, r2⟩ := hv.ret fx hfx hfast.ret
        rintro ((⟨i, hi, hd⟩ | ⟨e, he, hty, _⟩) | ⟨e, he, g, hd, _⟩)
        · have := r1 i hi
          rw [hd.1] at this
          cases this
        · exact r2 e he hty
        · exact r2 e he hd.1
      have hplain : ∀ b ∈ (bf f).cfg.exits, (bf f).cfg.out b = [] := by
        intro b hbx
        refine hv.plain b hbx ?_
        by_cases e : b = fx
        · rw [e]; exact (hv.ret fx hfx hfast.ret).2
        · refine hcall f hf _ _ h3 b ?_
          obtain ⟨l, -, hl⟩ := hfast.list
          rw [hl, List.mem_append, List.mem_filter]
          exact .inr ⟨hbx, by simpa using e⟩
      have hpre := fast_pre hv.ok hplain hfast (noCall := fun b => ∀ e ∈ co.targets b, e.type ≠ .call)
        hbx hbe (hcall f hf _ _ h3) (walk_cfg hcl hout hw hok.wf.entry)
      change Pre _ _ _ _ (fpTrace _ _ _ _)
      rw [h4, h5]
      exact pre_weaken (fun h => (hv.cfgExits b').mpr h.1) hpre

/-- Everything the function executes has the right shape. -/
theorem plan_pre_on (hb : Built fl skip co info R T bf plan) (hcall : ∀ f ∈ co.funcs, NoCallAtCheck fl co (bf f))
    {f : Func} (hf : f ∈ co.funcs) (hnr : CallsCovered T f) (hleft : LeftOk skip co T bf f)
    (hst : ¬ staysOf bf f) {ok : Edge → Prop}
    (hcl : ∀ b ∈ co.blocks f, ∀ e ∈ co.targets b, ok e → e.trg ∈ co.blocks f)
    (hex : ∀ b ∈ co.exitBlocks f, isNonreturningCall (co.targets b) = false →
      ∀ e ∈ co.targets b, ¬ ok e)
    (hout : ∀ b ∈ co.blocks f, ∀ e ∈ co.targets b, ok e → e ∈ (bf f).cfg.out b)
    {es : List Edge} {b' : Blk} (hw : Walk co.targets ok (co.entry f) es b')
    (hlow : ∀ L, doLowering fl co f (some (T f)) = some (some L) →
      RightShape co info (Wr T) f b' (L.trace (co.entry f) es)) :
    RightShape co info (Wr T) f b' ((plan f).trace (co.entry f) es) := by
  have hj := analyse_judged hb.code hb.sums
  have hok := hb.func f hf
  have hv := hb.view f hf
  have hin := walk_blocks hcl hw hok.wf.entry
  have hskip : (T f).writes = false →
      RightShape co info (Wr T) f b' (Plan.skipped.trace (co.entry f) es) := by
    intro hsf
    have := pre_blocks (bad := BadBlock co info (Wr T))
      (noCall := fun b => ∀ e ∈ co.targets b, e.type ≠ .call)
      (fin := b' ∈ co.exitBlocks f ∧ isNonreturningCall (co.targets b') = false) (o := none) (r := [])
      (bs := visits (co.entry f) es) (fun b hbm hbad => by
        have := bad_writes hj hf hnr (hin b hbm) hbad
        rw [hsf] at this
        cases this) trivial
    rwa [List.append_nil] at this
  have hout' : LeftOut skip (bf f) → (T f).writes = false := fun h => by
    cases hw : (T f).writes with
    | false => rfl
    | true => exact absurd (hleft.unsafe_stays h hw) hst
  by_cases hne : plan f = .skipped
  · rw [hne]
    refine hskip ?_
    rcases hb.cases hf with ⟨h, hp⟩ | ⟨ws, an, st, st', han, hplan⟩
    · exact hout' (.inl (h.resolve_left hst))
    have hsum : summaryOf fl an (bf f) = some (T f) := by
      unfold summaryOf
      rw [if_pos hb.light, hv.base, han]
      rfl
    have h40 := (C40_strategy hplan).1 hb.light
    rw [hsum] at h40
    have hsafe := h40.1.mp (by rw [hne]; rfl)
    rcases hsafe.2 with ⟨s, h1, h2⟩ | h
    · cases h1
      rw [hj.safe f] at h2
      simpa using h2
    · exact hout' (.inr h)
  · exact plan_shape hb hcall hf hne hcl hex hout hw fun L _ => hlow L

/-- The same without exceptions. -/
theorem plan_pre (hb : Built fl skip co info R T bf plan) (hcall : ∀ f ∈ co.funcs, NoCallAtCheck fl co (bf f))
    {f : Func} (hf : f ∈ co.funcs) (hnr : CallsCovered T f) (hleft : LeftOk skip co T bf f)
    (hst : ¬ staysOf bf f) {es : List Edge} {b' : Blk}
    (hw : Walk co.targets Follow (co.entry f) es b') :
    RightShape co info (Wr T) f b' ((plan f).trace (co.entry f) es) :=
  plan_pre_on hb hcall hf hnr hleft hst (hb.func f hf).wf.closed (fun b h _ => (hb.func f hf).exits b h)
    (hb.view f hf).out hw
    fun _ hl => lowered_pre (analyse_judged hb.code hb.sums) hb.asserts hf (hb.func f hf) hl hw

theorem fp_blocks (p : Blk) (xs : List Blk) (b : Blk) (es : List Edge) (x : Blk)
    (h : .block x ∈ fpTrace p xs b es) : x ∈ visits b es := by
  have hnode : ∀ c, Ev.block x ∈ fpTrace.fpNode p xs c → x = c := by
    intro c hc
    unfold fpTrace.fpNode at hc
    rw [List.mem_append, List.mem_cons] at hc
    rcases hc with hc | hc | hc
    · split at hc <;> simp at hc
    · cases hc; rfl
    · exact absurd (List.eq_of_mem_replicate hc) (by simp)
  induction es generalizing b with
  | nil => rw [fpTrace] at h; rw [hnode b h]; simp [visits]
  | cons e es ih =>
    rw [fpTrace, List.mem_append] at h
    rw [show visits b (e :: es) = b :: visits e.trg es from rfl]
    rcases h with h | h
    · rw [hnode b h]; simp
    · exact List.mem_cons_of_mem _ (ih _ h)

theorem point_blocks (ps xs : List Blk) (b : Blk) (es : List Edge) (x : Blk)
    (h : .block x ∈ pointTrace ps xs b es) : x ∈ visits b es := by
  unfold pointTrace at h
  rw [List.mem_append, List.mem_flatMap] at h
  rcases h with h | ⟨c, hc, h⟩
  · exact absurd (List.eq_of_mem_replicate h) (by simp)
  · rcases List.mem_cons.mp h with h | h
    · cases h; exact hc
    · exact absurd (List.eq_of_mem_replicate h) (by simp)

theorem traceFrom_blocks {d : Edge → Bool → Blk × Bool} (hd : ∀ e c, (d e c).1 = e.trg) (R : List Edge)
    (P : List (Blk × Bool)) (X : List Blk) (n : Blk × Bool) (es : List Edge) (x : Blk)
    (h : .block x ∈ traceFrom d R P X n es) : x ∈ visits n.1 es := by
  have hnode : ∀ n, Ev.block x ∈ nodeEv P X n → x = n.1 := by
    intro n hn
    simp only [nodeEv, List.mem_append, List.mem_singleton] at hn
    rcases hn with (hn | hn) | hn
    · split at hn <;> simp at hn
    · cases hn; rfl
    · split at hn <;> simp at hn
  induction es generalizing n with
  | nil => rw [hnode n h]; simp [visits]
  | cons e es ih =>
    rw [traceFrom, List.mem_append, List.mem_append] at h
    rw [show visits n.1 (e :: es) = n.1 :: visits e.trg es from rfl]
    rcases h with (h | h) | h
    · rw [hnode n h]; simp
    · simp only [edgeEv] at h
      split at h <;> simp at h
    · have := ih _ h
      rw [hd] at this
      exact List.mem_cons_of_mem _ this

/-- Only blocks of the function are executed. -/
theorem plan_blocks (hb : Built fl skip co info R T bf plan) {f : Func} (hf : f ∈ co.funcs) {ok : Edge → Prop}
    (hcl : ∀ b ∈ co.blocks f, ∀ e ∈ co.targets b, ok e → e.trg ∈ co.blocks f)
    {es : List Edge} {b' : Blk} (hw : Walk co.targets ok (co.entry f) es b') {x : Blk}
    (h : .block x ∈ (plan f).trace (co.entry f) es) : x ∈ co.blocks f := by
  have hok := hb.func f hf
  have hin := walk_blocks hcl hw hok.wf.entry
  have hv := hb.view f hf
  cases hp : plan f with
  | skipped =>
    rw [hp] at h
    obtain ⟨y, hy, e⟩ := List.mem_map.mp h
    cases e
    exact hin x hy
  | full a c => rw [hp] at h; exact hin x (point_blocks _ _ _ _ _ h)
  | regFrame a c => rw [hp] at h; exact hin x (point_blocks _ _ _ _ _ h)
  | entryExit a c => rw [hp] at h; exact hin x (point_blocks _ _ _ _ _ h)
  | fastPath a c => rw [hp] at h; exact hin x (fp_blocks _ _ _ _ _ h)
  | lowered L =>
    obtain ⟨ws, an, st, st', han, hplan⟩ := (hb.cases hf).resolve_left (by simp [hp])
    have hsum : summaryOf fl an (bf f) = some (T f) := by
      unfold summaryOf
      rw [if_pos hb.light, hv.base, han]
      rfl
    have h40 := ((C40_strategy hplan).1 hb.light).2 (by rw [hp]; simp [Plan.kind])
    rw [hp, hsum] at h40
    cases h40 with
    | lowered hl =>
      rw [hv.func] at hl
      obtain ⟨r, reach, cs, _, _, _, hlf⟩ := low_facts hb.asserts hl
      rw [hp] at h
      exact hin x (traceFrom_blocks hlf.dest_fst _ _ _ (co.entry f, false) es x h)

/-- The conditions of `Sound.protected` follow from the shape of what each function executes. -/
theorem shape_sound {wr inReg stays : Func → Prop} {ok : Edge → Prop}
    (hfunc : ∀ f ∈ co.funcs, FuncOk co f)
    (hbad : ∀ f ∈ co.funcs, ∀ b ∈ co.blocks f, BadBlock co info wr b → wr f)
    (hknown : ∀ f ∈ co.funcs, ∀ b ∈ co.exitBlocks f, ∀ e ∈ co.targets b, ¬ UnknownJump co e)
    (hjump : ∀ f ∈ co.funcs, ∀ b ∈ co.exitBlocks f, ∀ e ∈ co.targets b, ∀ g ∈ co.funcs, JumpTo co e g →
      (wr g → wr f) ∧ (stays f → stays g))
    (hskip : ∀ f ∈ co.funcs, stays f → plan f = .skipped)
    (hreg : ∀ f ∈ co.funcs, inReg f → ∀ b ∈ co.blocks f, ∀ e ∈ co.targets b, e.type ≠ .call)
    (hblocks : ∀ f ∈ co.funcs, ∀ es b', Walk co.targets ok (co.entry f) es b' →
      ∀ x, .block x ∈ (plan f).trace (co.entry f) es → x ∈ co.blocks f)
    (hshape : ∀ f ∈ co.funcs, ¬ stays f → ∀ es b', Walk co.targets ok (co.entry f) es b' →
      RightShape co info wr f b' ((plan f).trace (co.entry f) es)) :
    Sound (semOn ok co plan info inReg stays) wr := by
  have inside : ∀ {f t b}, StartsOn ok co plan f t → .block b ∈ t → b ∈ co.blocks f := by
    rintro f t b ⟨hf, t', es, b', hw, ht⟩ hm
    exact hblocks f hf _ _ hw _ (by rw [← ht]; simp [hm])
  have danger : ∀ {f b}, b ∈ co.blocks f → f ∈ co.funcs → ∀ e ∈ co.targets b, UnknownCall co e →
      BadBlock co info wr b := by
    intro f b hbm hf e he hu
    refine .inl (.inr ⟨e, he, hu.1, ?_⟩)
    cases hs : e.sink with
    | true => exact .inl rfl
    | false =>
      rcases (hfunc f hf).resolved b hbm e he hu.1 hs with ⟨n, hn⟩ | hd
      · exact .inr ⟨n, hn, fun ht => hu.2.1 ⟨n, hn, ht⟩⟩
      · exact absurd hd hu.2.2
  have mem_last : ∀ {t : List Ev} {b}, (∃ t', t = t' ++ [.block b] ∨ t = t' ++ [.block b, .check]) →
      Ev.block b ∈ t := by
    rintro t b ⟨t', rfl | rfl⟩ <;> simp
  -- nothing is inserted into functions which do not return
  have plain : ∀ {f}, f ∈ co.funcs → stays f → ∀ es, Ev.push ∉ (plan f).trace (co.entry f) es ∧
      Ev.check ∉ (plan f).trace (co.entry f) es := by
    intro f hf hst es
    rw [hskip f hf hst]
    simp [Plan.trace]
  -- a bad block with a call, at its end
  have atEnd : ∀ {f t b e}, AtEndOn ok co plan f t b → e ∈ co.targets b → e.type = .call →
      BadBlock co info wr b → wr f ∧ (¬ stays f → IsOpen t) := by
    rintro f t b e ⟨hst, hlast, _⟩ he hc hb
    have hbm := inside hst (mem_last hlast)
    obtain ⟨hf, t', es, b', hw, ht⟩ := hst
    refine ⟨hbad f hf b hbm hb, fun hs => ?_⟩
    have hpre := hshape f hf hs _ _ hw
    rw [← ht] at hpre
    obtain ⟨t0, rfl | rfl⟩ := hlast
    · rw [List.append_assoc] at hpre
      exact pre_bad hpre hb
    · rw [List.append_assoc] at hpre
      exact absurd hc (pre_noCall hpre e he)
  constructor
  · rintro f t _ (⟨hst, t0, b, rfl, i, hi, hd⟩ | ⟨b, hat, e, he, hu⟩ | ⟨b, hen, e, he, hu⟩)
    · have hbm := inside (b := b) hst (by simp)
      have hb : BadBlock co info wr b := .inl (.inl ⟨i, hi, hd⟩)
      obtain ⟨hf, t', es, b', hw, ht⟩ := hst
      refine ⟨hbad f hf b hbm hb, fun hs => ?_⟩
      have hpre := hshape f hf hs _ _ hw
      rw [← ht, List.append_assoc] at hpre
      exact pre_bad hpre hb
    · exact atEnd hat he hu.1 (danger (inside hat.1 (mem_last hat.2.1)) hat.1.1 e he hu)
    · exact absurd hu (hknown f hen.1 b hen.2.1 e he)
  · rintro f t g _ ⟨hg, ⟨b, hat, e, he, hd | hu⟩ | ⟨b, hen, e, he, hu⟩⟩ hw
    · exact atEnd hat he hd.1 (.inr ⟨e, he, g, hd, hw⟩)
    · exact atEnd hat he hu.1 (danger (inside hat.1 (mem_last hat.2.1)) hat.1.1 e he hu)
    · exact absurd hu (hknown f hen.1 b hen.2.1 e he)
  · rintro f t g ⟨hg, b, hen, e, he, hj⟩ hw
    exact (hjump f hen.1 b hen.2.1 e he g hg hj).1 hw
  · rintro f t g ⟨hg, b, hen, e, he, hj⟩ hw
    exact (hjump f hen.1 b hen.2.1 e he g hg hj).2 hw
  · rintro f t ⟨hf, t', es, b', hw, ht⟩
    have hs : ¬ stays f := fun hs => (plain hf hs es).1 (by rw [← ht]; simp)
    have hpre := hshape f hf hs _ _ hw
    rw [← ht, List.append_assoc] at hpre
    exact ⟨(pre_push hpre).1, (pre_push hpre).2, hs⟩
  · rintro f t ⟨hf, t', es, b', hw, ht⟩
    have hs : ¬ stays f := fun hs => (plain hf hs es).2 (by rw [← ht]; simp)
    have hpre := hshape f hf hs _ _ hw
    rw [← ht, List.append_assoc] at hpre
    exact pre_check hpre
  · rintro f t ⟨b, hf, hx, hr, es, hw, rfl⟩
    by_cases hs : stays f
    · exact fun h => (plain hf hs es).1 h.1
    · exact pre_fin (hshape f hf hs _ _ hw) ⟨hx, hr⟩
  · rintro f t g ⟨hg, ⟨b, hat, e, he, hd⟩ | ⟨b, hen, e, he, hu⟩⟩ hr
    · exact hreg f hat.1.1 hr b (inside hat.1 (mem_last hat.2.1)) e he (hd.elim (·.1) (·.1))
    · exact absurd hu (hknown f hen.1 b hen.2.1 e he)

/-- Functions which keep the return address in a register call nothing. -/
theorem inReg_noCall (hb : Built fl skip co info R T bf plan) {f : Func} (hf : f ∈ co.funcs)
    (hreg : inRegOf fl T f) : ∀ b ∈ co.blocks f, ∀ e ∈ co.targets b, e.type ≠ .call := by
  intro b hbm e he hty
  have hj := analyse_judged hb.code hb.sums
  obtain ⟨_, s, hs, r1, _, r3, r4⟩ := (useRegFrame_iff fl (some (T f))).mp hreg
  cases hs
  have hc := hj.calls f hf
  cases hs : e.sink with
  | true =>
    have := hc.unknown.mpr ⟨b, e, ⟨hbm, he⟩, hs, by simp [hty], by simp [hty]⟩
    rw [r3] at this
    cases this
  | false =>
    rcases (hb.func f hf).resolved b hbm e he hty hs with ⟨n, hn⟩ | ⟨g', _, hd'⟩
    · obtain ⟨n', hn'⟩ := hc.plt_complete b e n ⟨hbm, he⟩ hn
      rw [r4] at hn'
      cases hn'
    · have := (hc.callees g').mpr ⟨b, e, ⟨hbm, he⟩, hd'⟩
      rw [r1] at this
      cases this

/-- The conditions of `Sound.protected`. -/
theorem built_sound_on (hb : Built fl skip co info R T bf plan) (hnr : ∀ f ∈ co.funcs, CallsCovered T f)
    (htail : ∀ f ∈ co.funcs, TailsOk co T f) (hleft : ∀ f ∈ co.funcs, LeftOk skip co T bf f)
    {ok : Edge → Prop}
    (hcl : ∀ f ∈ co.funcs, ∀ b ∈ co.blocks f, ∀ e ∈ co.targets b, ok e → e.trg ∈ co.blocks f)
    (hshape : ∀ f ∈ co.funcs, ¬ staysOf bf f → ∀ es b', Walk co.targets ok (co.entry f) es b' →
      RightShape co info (Wr T) f b' ((plan f).trace (co.entry f) es)) :
    Sound (semOn ok co plan info (inRegOf fl T) (staysOf bf)) (Wr T) :=
  shape_sound hb.func
    (fun f hf _ hbm h => bad_writes (analyse_judged hb.code hb.sums) hf (hnr f hf) hbm h)
    (fun f hf => (htail f hf).known)
    (fun f hf b hbx e he g hg hj =>
      ⟨(htail f hf).covered b hbx e he g hg hj, fun hs => (hleft f hf).jumps hs b hbx e he g hg hj⟩)
    (fun f hf hs => hb.left f hf (.inl hs)) (fun _ hf hr => inReg_noCall hb hf hr)
    (fun f hf _ _ hw _ hx => plan_blocks hb hf (hcl f hf) hw hx) hshape

/-- The same without exceptions. -/
theorem built_sound (hb : Built fl skip co info R T bf plan)
    (hcall : ∀ f ∈ co.funcs, NoCallAtCheck fl co (bf f)) (hnr : ∀ f ∈ co.funcs, CallsCovered T f)
    (htail : ∀ f ∈ co.funcs, TailsOk co T f) (hleft : ∀ f ∈ co.funcs, LeftOk skip co T bf f) :
    Sound (semOf co info plan (inRegOf fl T) (staysOf bf)) (Wr T) :=
  built_sound_on hb hnr htail hleft (fun f hf => (hb.func f hf).wf.closed)
    fun f hf hs _ _ hw => plan_pre hb hcall hf (hnr f hf) (hleft f hf) hs hw

/-- **C45, what holds.** A program analysed and instrumented by the tool is protected, whatever
function it starts with, if functions which write unsafely are called only by such functions
(`CallsCovered`, which holds without recursion), jumps lead only to known functions and to functions
that write unsafely only from functions that do (`TailsOk`), functions which are left out are harmless or
do not return (`LeftOk`), and no call is made right before a check of the fast path.
Missing: programs with other recursion, tail jumps, functions left out or such calls, for which it is
false; exceptions, which are in `C86`, and jumps with unknown targets, which are in `C97`. -/
theorem C45_protected_partial (hb : Built fl skip co info R T bf plan)
    (hcall : ∀ f ∈ co.funcs, NoCallAtCheck fl co (bf f)) (hnr : ∀ f ∈ co.funcs, CallsCovered T f)
    (htail : ∀ f ∈ co.funcs, TailsOk co T f) (hleft : ∀ f ∈ co.funcs, LeftOk skip co T bf f) (f : Func) :
    Protected (semOf co info plan (inRegOf fl T) (staysOf bf)) f :=
  (built_sound hb hcall hnr htail hleft).protected f

end

end Verif
