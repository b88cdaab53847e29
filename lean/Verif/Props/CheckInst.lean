import Verif.CheckInst
import Verif.Props.SkipListExact

/-!
# C85: the check of a rewritten binary
-/

namespace Verif

/-! ## Specification -/

/-- A line of a disassembly: blanks, the address and a colon, a tab, the bytes, a tab and the
instruction. -/
inductive InsnLine : List Char → List Char → List Char → Prop
  | mk {sp a bytes insn : List Char} : sp ≠ [] → (∀ c ∈ sp, c = ' ') → a ≠ [] →
      (∀ c ∈ a, ¬ Space c ∧ c ≠ ':') → '\t' ∉ bytes →
      InsnLine (sp ++ a ++ [':', '\t'] ++ bytes ++ '\t' :: insn) a insn

/-- A line without a colon, or one which begins with neither a blank nor a colon. -/
def OtherLine (line : List Char) : Prop :=
  ':' ∉ line ∨ ∃ c rest, line = c :: rest ∧ c ≠ ' ' ∧ c ≠ ':'

/-- A disassembly and its instructions. -/
inductive Listing : List (List Char) → List (List Char × List Char) → Prop
  | nil : Listing [] []
  | insn {line a i lines l} : InsnLine line a i → Listing lines l → Listing (line :: lines) ((a, i) :: l)
  | other {line lines l} : OtherLine line → Listing lines l → Listing (line :: lines) l

/-- The first words of an instruction. -/
def FirstWords (insn op arg : List Char) : Prop :=
  ∃ rest tail, insn = op ++ ' ' :: arg ++ tail ∧ op ≠ [] ∧ arg ≠ [] ∧ (∀ c ∈ op, ¬ Space c) ∧
    (∀ c ∈ arg, ¬ Space c) ∧ (tail = [] ∨ ∃ c, tail = c :: rest ∧ Space c)

/-! ## Splitting -/

theorem pySplitP_clean {p : Char → Bool} {w : List Char} (h : ∀ c ∈ w, p c = false) :
    pySplitP p w = [w] := by
  induction w with
  | nil => rfl
  | cons c w ih =>
    unfold pySplitP
    rw [if_neg (by rw [h c (by simp)]; decide), ih fun c hc => h c (by simp [hc])]

theorem pySplitP_sep {p : Char → Bool} {w : List Char} (h : ∀ c ∈ w, p c = false) {d : Char}
    (hd : p d = true) (s : List Char) : pySplitP p (w ++ d :: s) = w :: pySplitP p s := by
  induction w with
  | nil =>
    rw [List.nil_append]
    conv => lhs; unfold pySplitP
    rw [if_pos hd]
  | cons c w ih =>
    rw [List.cons_append]
    conv => lhs; unfold pySplitP
    rw [if_neg (by rw [h c (by simp)]; decide), ih fun c hc => h c (by simp [hc])]

theorem pySplitP_ne (p : Char → Bool) (s : List Char) : pySplitP p s ≠ [] := by
  cases s with
  | nil => exact nofun
  | cons c s =>
    unfold pySplitP
    split
    · exact nofun
    · split <;> exact nofun

/-- Joining what was split. -/
theorem pyJoin_split (d : Char) (s : List Char) : pyJoin d (pySplit d s) = s := by
  unfold pySplit
  induction s with
  | nil => rfl
  | cons c s ih =>
    unfold pySplitP
    split
    · rename_i h
      have hc : c = d := by simpa using h
      subst hc
      cases hs : pySplitP (fun x => x == c) s with
      | nil => exact absurd hs (pySplitP_ne _ _)
      | cons w ws =>
        rw [hs] at ih
        show [] ++ c :: pyJoin c (w :: ws) = c :: s
        rw [ih]; rfl
    · cases hs : pySplitP (fun x => x == d) s with
      | nil => exact absurd hs (pySplitP_ne _ _)
      | cons w ws =>
        rw [hs] at ih
        simp only
        cases ws with
        | nil =>
          have ih : w = s := ih
          show c :: w = c :: s
          rw [ih]
        | cons v vs =>
          have ih : w ++ d :: pyJoin d (v :: vs) = s := ih
          show c :: w ++ d :: pyJoin d (v :: vs) = c :: s
          rw [← ih]; rfl

theorem notSpace {c : Char} (h : ¬ Space c) : isSpaceC c = false := by
  cases e : isSpaceC c with
  | false => rfl
  | true => exact absurd ((space_iff c).mp e) h

theorem pyWords_blanks {sp : List Char} (h : ∀ c ∈ sp, c = ' ') (s : List Char) :
    pyWords (sp ++ s) = pyWords s := by
  induction sp with
  | nil => rfl
  | cons c sp ih =>
    rw [List.cons_append, h c (by simp), ← ih fun c hc => h c (by simp [hc])]
    unfold pyWords
    conv => lhs; unfold pySplitP
    rw [if_pos (by decide)]
    rfl

theorem pyWords_one {w : List Char} (hw : w ≠ []) (h : ∀ c ∈ w, ¬ Space c) : pyWords w = [w] := by
  unfold pyWords
  rw [pySplitP_clean fun c hc => notSpace (h c hc)]
  cases w with
  | nil => exact absurd rfl hw
  | cons c w => rfl

theorem pyWords_sep {w : List Char} (hw : w ≠ []) (h : ∀ c ∈ w, ¬ Space c) {d : Char} (hd : Space d)
    (s : List Char) : pyWords (w ++ d :: s) = w :: pyWords s := by
  unfold pyWords
  rw [pySplitP_sep (fun c hc => notSpace (h c hc)) ((space_iff d).mpr hd)]
  cases w with
  | nil => exact absurd rfl hw
  | cons c w => rfl

/-! ## Lines -/

theorem parseLine_insn {line a i : List Char} (h : InsnLine line a i) :
    parseLine line = some (some (a, i)) := by
  cases h with
  | @mk sp a bytes insn h1 h2 h3 h4 h5 =>
    have hcol : (strFind (sp ++ a ++ [':', '\t'] ++ bytes ++ '\t' :: i) [':']).isSome = true := by
      rw [strFind_some]
      exact ⟨sp ++ a, '\t' :: bytes ++ '\t' :: i, by simp⟩
    have hsplit : pySplit ':' (sp ++ a ++ [':', '\t'] ++ bytes ++ '\t' :: i) =
        (sp ++ a) :: pySplit ':' ('\t' :: bytes ++ '\t' :: i) := by
      rw [show sp ++ a ++ [':', '\t'] ++ bytes ++ '\t' :: i = (sp ++ a) ++ ':' :: ('\t' :: bytes ++ '\t' :: i) by simp]
      refine pySplitP_sep (fun c hc => ?_) (by decide) _
      rcases List.mem_append.mp hc with hc | hc
      · rw [h2 c hc]; decide
      · simpa using (h4 c hc).2
    have htab : pySplit '\t' (sp ++ a ++ [':', '\t'] ++ bytes ++ '\t' :: i) =
        (sp ++ a ++ [':']) :: bytes :: pySplit '\t' i := by
      rw [show sp ++ a ++ [':', '\t'] ++ bytes ++ '\t' :: i = (sp ++ a ++ [':']) ++ '\t' :: (bytes ++ '\t' :: i) by simp]
      unfold pySplit
      rw [pySplitP_sep (fun c hc => ?_) (by decide), pySplitP_sep (fun c hc => ?_) (by decide)]
      · exact beq_eq_false_iff_ne.mpr fun e => h5 (e ▸ hc)
      · apply beq_eq_false_iff_ne.mpr
        rintro rfl
        simp only [List.mem_append, List.mem_singleton] at hc
        rcases hc with (hc | hc) | hc
        · exact absurd (h2 _ hc) (by decide)
        · exact (h4 _ hc).1 (by unfold Space; decide)
        · exact absurd hc (by decide)
    unfold parseLine
    rw [if_neg (by rw [Option.isNone_iff_eq_none]; intro e; rw [e] at hcol; cases hcol), hsplit, htab]
    cases sp with
    | nil => exact absurd rfl h1
    | cons c sp =>
      have hc := h2 c (by simp)
      subst hc
      have hw : pyWords (' ' :: (sp ++ a)) = [a] := by
        have := pyWords_blanks h2 a
        rw [List.cons_append] at this
        rw [this]
        exact pyWords_one h3 fun c hc => (h4 c hc).1
      simp only [List.head?_cons, List.cons_append]
      rw [if_neg (by simp), hw]
      simp only [List.drop_succ_cons, List.drop_zero, pyJoin_split]

theorem parseLine_other {line : List Char} (h : OtherLine line) : parseLine line = some none := by
  have hcol : (strFind line [':']).isSome = true ↔ ':' ∈ line := by
    rw [strFind_some]
    constructor
    · rintro ⟨s, t, rfl⟩; simp
    · intro h
      obtain ⟨s, t, rfl⟩ := List.append_of_mem h
      exact ⟨s, t, by simp⟩
  unfold parseLine
  by_cases hm : ':' ∈ line
  · have h' := hcol.mpr hm
    rw [if_neg (by rw [Option.isNone_iff_eq_none]; intro e; rw [e] at h'; cases h')]
    rcases h with h | ⟨c, rest, rfl, h1, h2⟩
    · exact absurd hm h
    · unfold pySplit
      conv => lhs; unfold pySplitP
      rw [if_neg (by simpa using h2)]
      split
      · rename_i hn
        split at hn <;> cases hn
      · rename_i hn
        split at hn <;> cases hn
      · rename_i c' part hn
        have : c' = c := by
          split at hn <;> (cases hn; rfl)
        rw [this, if_pos h1]
  · rw [if_pos]
    rw [Option.isNone_iff_eq_none]
    cases e : strFind line [':'] with
    | none => rfl
    | some n => exact absurd (hcol.mp (by rw [e]; rfl)) hm

/-- The entries with the instruction before each. -/
def withPrev (last : List Char) : List (List Char × List Char) → List (List Char × List Char × List Char)
  | [] => []
  | (a, i) :: l => (a, i, last) :: withPrev i l

theorem parseLines_listing {lines : List (List Char)} {l : List (List Char × List Char)}
    (h : Listing lines l) (last : List Char) : parseLines lines last = some (withPrev last l) := by
  induction h generalizing last with
  | nil => rfl
  | insn h1 _ ih =>
    unfold parseLines
    rw [parseLine_insn h1]
    simp [ih, withPrev]
  | other h1 _ ih =>
    unfold parseLines
    rw [parseLine_other h1]
    simp [ih]

theorem mem_withPrev_first {l : List (List Char × List Char)} {last a i p : List Char}
    (h : (a, i, p) ∈ withPrev last l) : (a, i) ∈ l := by
  induction l generalizing last with
  | nil => cases h
  | cons x l ih =>
    obtain ⟨b, j⟩ := x
    rcases List.mem_cons.mp h with h | h
    · cases h; simp
    · exact List.mem_cons_of_mem _ (ih h)

theorem withPrev_keys (last : List Char) (l : List (List Char × List Char)) :
    (withPrev last l).map (·.1) = l.map (·.1) := by
  induction l generalizing last with
  | nil => rfl
  | cons x l ih =>
    obtain ⟨b, j⟩ := x
    simp [withPrev, ih]

theorem withPrev_append (last : List Char) (l : List (List Char × List Char)) (a i b j : List Char)
    (r : List (List Char × List Char)) :
    (b, j, i) ∈ withPrev last (l ++ (a, i) :: (b, j) :: r) := by
  induction l generalizing last with
  | nil => simp [withPrev]
  | cons x l ih =>
    obtain ⟨c, k⟩ := x
    exact List.mem_cons_of_mem _ (ih k)

/-- Looking up a key which occurs once. -/
theorem lookup_unique {α β : Type} [BEq α] [LawfulBEq α] {l : List (α × β)} (hnd : (l.map (·.1)).Nodup) {a : α} {b : β}
    (h : (a, b) ∈ l) : l.lookup a = some b := by
  induction l with
  | nil => cases h
  | cons x l ih =>
    obtain ⟨c, d⟩ := x
    rw [List.map_cons, List.nodup_cons] at hnd
    rcases List.mem_cons.mp h with h | h
    · cases h; simp
    · have : a ≠ c := fun e => hnd.1 (List.mem_map.mpr ⟨(a, b), h, e⟩)
      rw [List.lookup_cons, show (a == c) = false from beq_eq_false_iff_ne.mpr this]
      exact ih hnd.2 h

/-! ## The property -/

/-- C85.  From a disassembly with distinct addresses the script takes every instruction, and with
it the instruction before it: what it prints for a return address is the call. -/
theorem C85_parse {lines : List (List Char)} {l : List (List Char × List Char)} (h : Listing lines l)
    (hnd : (l.map (·.1)).Nodup) : ∃ t, parseLines lines [] = some t ∧
      (∀ a i, (a, i) ∈ l → relocationAt t a = some i) ∧
      (∀ pre post a i b j, l = pre ++ (a, i) :: (b, j) :: post → prevLineAt t b = some i) ∧
      ∀ a, a ∉ l.map (·.1) → relocationAt t a = none ∧ prevLineAt t a = none := by
  have hnd' : ((withPrev [] l).reverse.map (·.1)).Nodup := by
    rw [List.map_reverse, withPrev_keys]
    exact (List.reverse_perm _).nodup_iff.mpr hnd
  refine ⟨_, parseLines_listing h [], ?_, ?_, ?_⟩
  · intro a i hm
    have : ∃ p, (a, i, p) ∈ withPrev [] l := by
      generalize ([] : List Char) = last
      clear hnd hnd' h
      induction l generalizing last with
      | nil => cases hm
      | cons x l ih =>
        obtain ⟨b, j⟩ := x
        rcases List.mem_cons.mp hm with e | hm
        · cases e; exact ⟨last, by simp [withPrev]⟩
        · obtain ⟨p, hp⟩ := ih hm j
          exact ⟨p, List.mem_cons_of_mem _ hp⟩
    obtain ⟨p, hp⟩ := this
    unfold relocationAt
    rw [lookup_unique hnd' (List.mem_reverse.mpr hp)]
    rfl
  · intro pre post a i b j e
    have := withPrev_append [] pre a i b j post
    rw [← e] at this
    unfold prevLineAt
    rw [lookup_unique hnd' (List.mem_reverse.mpr this)]
    rfl
  · intro a ha
    have : (withPrev [] l).reverse.lookup a = none := by
      rw [List.lookup_eq_none_iff]
      intro p hp
      rw [List.mem_reverse] at hp
      have : p.1 ∈ (withPrev [] l).map (·.1) := List.mem_map.mpr ⟨p, hp, rfl⟩
      rw [withPrev_keys] at this
      apply bne_iff_ne.mpr
      exact fun e => ha (e ▸ this)
    unfold relocationAt prevLineAt
    rw [this]
    exact ⟨rfl, rfl⟩

/-- The first words of an instruction line. -/
theorem insnLine_words {line a i op arg : List Char} (h : InsnLine line a i) (hw : FirstWords i op arg) :
    ∃ part rest, (pySplit '\t' line)[2]? = some part ∧ pyWords part = op :: arg :: rest := by
  cases h with
  | @mk sp a bytes insn h1 h2 h3 h4 h5 =>
    have htab : pySplit '\t' (sp ++ a ++ [':', '\t'] ++ bytes ++ '\t' :: i) =
        (sp ++ a ++ [':']) :: bytes :: pySplit '\t' i := by
      rw [show sp ++ a ++ [':', '\t'] ++ bytes ++ '\t' :: i = (sp ++ a ++ [':']) ++ '\t' :: (bytes ++ '\t' :: i) by simp]
      unfold pySplit
      rw [pySplitP_sep (fun c hc => ?_) (by decide), pySplitP_sep (fun c hc => ?_) (by decide)]
      · exact beq_eq_false_iff_ne.mpr fun e => h5 (e ▸ hc)
      · apply beq_eq_false_iff_ne.mpr
        rintro rfl
        simp only [List.mem_append, List.mem_singleton] at hc
        rcases hc with (hc | hc) | hc
        · exact absurd (h2 _ hc) (by decide)
        · exact (h4 _ hc).1 (by unfold Space; decide)
        · exact absurd hc (by decide)
    rw [htab]
    obtain ⟨rest, tail, rfl, ho, ha, hos, has, ht⟩ := hw
    have hclean : ∀ c ∈ op ++ ' ' :: arg, (c == '\t') = false := by
      intro c hc
      apply beq_eq_false_iff_ne.mpr
      rintro rfl
      have hsp : Space '\t' := by unfold Space; decide
      simp only [List.mem_append, List.mem_cons] at hc
      rcases hc with hc | hc | hc
      · exact hos _ hc hsp
      · exact absurd hc (by decide)
      · exact has _ hc hsp
    have hblank : Space ' ' := by unfold Space; decide
    have hsplit : ∃ more ws, pySplit '\t' (op ++ ' ' :: arg ++ tail) = (op ++ ' ' :: arg ++ more) :: ws ∧
        (more = [] ∨ ∃ c r, more = c :: r ∧ Space c) := by
      rcases ht with rfl | ⟨c, rfl, hc⟩
      · exact ⟨[], [], by rw [List.append_nil]; exact pySplitP_clean hclean, .inl rfl⟩
      · by_cases hcd : c = '\t'
        · subst hcd
          refine ⟨[], pySplit '\t' rest, ?_, .inl rfl⟩
          rw [List.append_nil]
          exact pySplitP_sep hclean (by decide) rest
        · have key : ∀ (w : List Char), (∀ c ∈ w, (c == '\t') = false) → ∀ t, ∃ m ws,
              pySplit '\t' (w ++ t) = (w ++ m) :: ws ∧ (∀ q r, t = q :: r → q ≠ '\t' → ∃ r', m = q :: r') := by
            intro w hw t
            induction w with
            | nil =>
              cases e : pySplit '\t' t with
              | nil => exact absurd e (pySplitP_ne _ _)
              | cons m ws =>
                refine ⟨m, ws, by rw [List.nil_append, e]; rfl, ?_⟩
                rintro q r rfl hq
                unfold pySplit pySplitP at e
                rw [if_neg (by simpa using hq)] at e
                split at e
                · cases e; exact ⟨_, rfl⟩
                · cases e; exact ⟨_, rfl⟩
            | cons x w ih =>
              obtain ⟨m, ws, e, hm⟩ := ih fun c hc => hw c (by simp [hc])
              refine ⟨m, ws, ?_, hm⟩
              rw [List.cons_append]
              unfold pySplit at e ⊢
              conv => lhs; unfold pySplitP
              rw [if_neg (by rw [hw x (by simp)]; decide), e]
              rfl
          obtain ⟨m, ws, e, hm⟩ := key _ hclean (c :: rest)
          obtain ⟨r', hr'⟩ := hm c rest rfl hcd
          exact ⟨m, ws, e, .inr ⟨c, r', hr', hc⟩⟩
    obtain ⟨more, ws, e, hmore⟩ := hsplit
    refine ⟨op ++ ' ' :: arg ++ more, ?_⟩
    rw [e]
    have : op ++ ' ' :: arg ++ more = op ++ ' ' :: (arg ++ more) := by simp
    rw [this, pyWords_sep ho hos hblank]
    rcases hmore with rfl | ⟨c, r, rfl, hc⟩
    · rw [List.append_nil, pyWords_one ha has]
      exact ⟨[], rfl, rfl⟩
    · rw [pyWords_sep ha has hc]
      exact ⟨_, rfl, rfl⟩

theorem springLines_none {reloc : List Char → Option (List Char)} {lines : List (List Char)}
    (h : springLines reloc lines = some []) {pre post : List (List Char)} {label first : List Char}
    (e : lines = pre ++ label :: first :: post) (hl : label.getLast? = some ':') :
    springFirst reloc first = some false := by
  induction pre generalizing lines with
  | nil =>
    subst e
    rw [List.nil_append] at h
    unfold springLines at h
    rw [if_pos hl] at h
    simp only [Option.bind_eq_bind, Option.bind_eq_some_iff, Option.pure_def, Option.some.injEq] at h
    obtain ⟨b, hb, l, _, h⟩ := h
    cases b with
    | false => exact hb
    | true => cases h
  | cons x pre ih =>
    subst e
    have hstep : ∀ y ys, springLines reloc (x :: y :: ys) = some [] → springLines reloc (y :: ys) = some [] := by
      intro y ys h
      unfold springLines at h
      split at h
      · simp only [Option.bind_eq_bind, Option.bind_eq_some_iff, Option.pure_def, Option.some.injEq] at h
        obtain ⟨b, _, l, hl, h⟩ := h
        cases b with
        | false => rw [hl]; exact congrArg some h
        | true => cases h
      · exact h
    cases pre with
    | nil => exact ih (hstep _ _ h) rfl
    | cons y pre => exact ih (hstep _ _ h) rfl

/-- C85.  If the script has no complaint, then whenever a line which ends with a colon is followed
by an instruction with an operand, that is a jump to a relocated instruction with `push` in
it. -/
theorem C85_sound {reloc : List Char → Option (List Char)} {lines pre post : List (List Char)}
    {label first a i op arg : List Char} (h : springLines reloc lines = some [])
    (e : lines = pre ++ label :: first :: post) (hl : label.getLast? = some ':')
    (hi : InsnLine first a i) (hw : FirstWords i op arg) :
    op = "jmpq".toList ∧ ∃ r, reloc arg = some r ∧ "push".toList <:+: r := by
  have hf := springLines_none h e hl
  obtain ⟨part, rest, e1, e2⟩ := insnLine_words hi hw
  unfold springFirst at hf
  rw [e1] at hf
  simp only [e2] at hf
  split at hf
  · cases hf
  · rename_i ho
    refine ⟨Classical.not_not.mp ho, ?_⟩
    cases hr : reloc arg with
    | none => rw [hr] at hf; cases hf
    | some r =>
      rw [hr] at hf
      refine ⟨r, rfl, ?_⟩
      rw [← strFind_some]
      simp only [Option.some.injEq] at hf
      cases hs : strFind r "push".toList with
      | none => rw [hs] at hf; cases hf
      | some n => rfl

/-- **C85 fails** for a binary which objdump cannot read, when its message does not contain the word
"error" or begins with it: there is no complaint. -/
theorem C85_refuted_unreadable :
    objdumpFailed "objdump: 'a.out': No such file".toList = false ∧
    objdumpFailed "error: a.out".toList = false ∧ parseObjdump [] = some [] ∧
    ∀ reloc, springBoards reloc [] = some [] := by
  refine ⟨by decide +kernel, by decide +kernel, by decide +kernel, fun reloc => rfl⟩

/-- Newer versions of objdump print `jmp`: every function is complained about. -/
theorem C85_refuted_jmp (reloc : List Char → Option (List Char)) {first a i arg : List Char}
    (hi : InsnLine first a i) (hw : FirstWords i "jmp".toList arg) :
    springFirst reloc first = some true := by
  obtain ⟨part, rest, e1, e2⟩ := insnLine_words hi hw
  unfold springFirst
  rw [e1]
  simp only [e2]
  rw [if_pos (by decide)]

/-! ## Exactly which lines are complained about -/

/-- The labels which are followed by a line for which `bad` holds. -/
inductive Complaints (bad good : List Char → Prop) : List (List Char) → List (List Char) → Prop
  | nil : Complaints bad good [] []
  | other {line : List Char} {lines l : List (List Char)} : line.getLast? ≠ some ':' →
      Complaints bad good lines l → Complaints bad good (line :: lines) l
  | bad {line first : List Char} {lines l : List (List Char)} : line.getLast? = some ':' → bad first →
      Complaints bad good (first :: lines) l → Complaints bad good (line :: first :: lines) (line :: l)
  | good {line first : List Char} {lines l : List (List Char)} : line.getLast? = some ':' → good first →
      Complaints bad good (first :: lines) l → Complaints bad good (line :: first :: lines) l

/-- C85.  The script complains about the labels followed by a line that is not good, in their order; it
fails exactly if a label is the last line or the line after it cannot be read. -/
theorem C85_complaints (reloc : List Char → Option (List Char)) (lines l : List (List Char)) :
    springLines reloc lines = some l ↔
      Complaints (fun x => springFirst reloc x = some true) (fun x => springFirst reloc x = some false) lines l := by
  induction lines generalizing l with
  | nil =>
    constructor
    · intro h; cases h; exact .nil
    · intro h; cases h; rfl
  | cons line lines ih =>
    cases lines with
    | nil =>
      unfold springLines
      split
      · rename_i hl
        constructor
        · intro h; cases h
        · intro h
          cases h with
          | other hn _ => exact absurd hl hn
      · rename_i hl
        constructor
        · intro h; cases h; exact .other hl .nil
        · intro h
          cases h with
          | other _ h => cases h; rfl
    | cons first lines =>
      unfold springLines
      split
      · rename_i hl
        simp only [Option.bind_eq_bind, Option.bind_eq_some_iff, Option.pure_def, Option.some.injEq]
        constructor
        · rintro ⟨b, hb, l', hl', rfl⟩
          cases b with
          | true => exact .bad hl hb ((ih l').mp hl')
          | false => exact .good hl hb ((ih l').mp hl')
        · intro h
          cases h with
          | other hn _ => exact absurd hl hn
          | bad _ hb h => exact ⟨true, hb, _, (ih _).mpr h, rfl⟩
          | good _ hg h => exact ⟨false, hg, _, (ih _).mpr h, rfl⟩
      · rename_i hl
        rw [ih l]
        constructor
        · intro h; exact .other hl h
        · intro h
          cases h with
          | other _ h => exact h
          | bad hl' _ _ => exact absurd hl' hl
          | good hl' _ _ => exact absurd hl' hl

/-- C85.  A line which has no third column is good. -/
theorem C85_short (reloc : List Char → Option (List Char)) (first : List Char)
    (h : (pySplit '\t' first).length < 3) : springFirst reloc first = some false := by
  unfold springFirst
  rw [List.getElem?_eq_none (by omega)]

/-- A label which is the last line makes the script fail. -/
example : springLines (fun _ => none) ["f:".toList] = none := by decide +kernel

/-! ## Which parts are looked at -/

theorem sliceFrom_none (o : List Char) : sliceFrom o none = o.getLast?.toList := by
  unfold sliceFrom
  rcases List.eq_nil_or_concat o with rfl | ⟨l, c, rfl⟩
  · rfl
  · simp

theorem pySplit_one (d c : Char) : pySplit d [c] = if c = d then [[], []] else [[c]] := by
  by_cases h : c = d <;> simp [pySplit, pySplitP, h]

/-- **C85 fails** for a binary which was not rewritten: without the section of relocated code only the last
character is looked at, and nothing is found (or the script fails). -/
theorem C85_refuted_section (o : List Char) (h : ¬ ".dyninstInst".toList <:+: o) :
    parseObjdump o = if o.getLast? = some ':' then none else some [] := by
  have hn : strFind o ".dyninstInst".toList = none := by
    cases hs : strFind o ".dyninstInst".toList with
    | none => rfl
    | some n => exact absurd ((strFind_some _ _).mp (by rw [hs]; rfl)) h
  unfold parseObjdump
  rw [hn, sliceFrom_none]
  cases o.getLast? with
  | none => decide
  | some c =>
    by_cases h1 : c = ':'
    · subst h1; decide +kernel
    · rw [if_neg (by simpa using h1)]
      change parseLines (pySplit '\n' [c]) [] = _
      rw [pySplit_one]
      split
      · decide +kernel
      · have : strFind [c] [':'] = none := by
          cases hs : strFind [c] [':'] with
          | none => rfl
          | some n =>
            have := (strFind_some [c] [':']).mp (by rw [hs]; rfl)
            have := this.subset (List.mem_singleton.mpr rfl)
            exact absurd (List.mem_singleton.mp this).symm h1
        simp [parseLines, parseLine, this]

/-- C85.  The lines looked at for spring boards are those from `.text` up to `.fini`, if there are such;
without `.fini` the last character is left out. -/
theorem C85_text {reloc : List Char → Option (List Char)} {o pre mid post : List Char}
    (ho : o = pre ++ mid ++ post) (ht : strFind o ".text".toList = some pre.length)
    (hf : strFind o ".fini".toList = some (pre ++ mid).length ∨
      ¬ ".fini".toList <:+: o ∧ post.length = 1) :
    springBoards reloc o = springLines reloc (pySplit '\n' mid) := by
  have hj : (strFind o ".fini".toList).getD (o.length - 1) = (pre ++ mid).length := by
    rcases hf with hf | ⟨hf, hp⟩
    · rw [hf]; rfl
    · have hn : strFind o ".fini".toList = none := by
        cases hs : strFind o ".fini".toList with
        | none => rfl
        | some n => exact absurd ((strFind_some _ _).mp (by rw [hs]; rfl)) hf
      rw [hn, ho]
      simp [hp]
  unfold springBoards sliceBetween
  rw [ht]
  simp only [hj, Option.getD_some]
  rw [ho, List.take_left' rfl, List.drop_left' rfl]

/-- Without `.text` nothing is looked at but what comes before `.fini` and is the last character. -/
theorem C85_no_text {reloc : List Char → Option (List Char)} {o : List Char}
    (h : ¬ ".text".toList <:+: o) (h' : ".fini".toList <:+: o) : springBoards reloc o = some [] := by
  have hn : strFind o ".text".toList = none := by
    cases hs : strFind o ".text".toList with
    | none => rfl
    | some n => exact absurd ((strFind_some _ _).mp (by rw [hs]; rfl)) h
  obtain ⟨n, hs⟩ := Option.isSome_iff_exists.mp ((strFind_some o ".fini".toList).mpr h')
  have hlen : n ≤ o.length - 1 := by
    obtain ⟨h1, _⟩ := strFind_first _ _ _ hs
    have := h1.length_le
    simp at this
    omega
  unfold springBoards sliceBetween
  rw [hn, hs]
  simp only [Option.getD_some, Option.getD_none]
  rw [List.drop_eq_nil_of_le (by rw [List.length_take]; omega)]
  rfl

/-- C85.  What objdump prints as an error is one if the word occurs and is not at the beginning. -/
theorem C85_failed (err : List Char) : objdumpFailed err = true ↔
    "error".toList <:+: err ∧ ¬ "error".toList <+: err := by
  rw [← strFind_some, ← strFind_zero]
  unfold objdumpFailed
  cases h : strFind err "error".toList with
  | none => simp
  | some n => cases n <;> simp

/-! ## Return addresses -/

theorem dropWhile_space {sp s : List Char} (h1 : ∀ c ∈ sp, Space c) (h2 : NotFirst Space s) :
    (sp ++ s).dropWhile isSpaceC = s := dropWhile_spaces h1 h2

theorem pyStrip_spec {sp a sp' : List Char} (h1 : ∀ c ∈ sp, Space c) (h2 : ∀ c ∈ sp', Space c)
    (h3 : ∀ c ∈ a, ¬ Space c) (h4 : a ≠ []) : pyStrip (sp ++ a ++ sp') = a := by
  unfold pyStrip
  rw [List.append_assoc, dropWhile_space h1, List.reverse_append, dropWhile_space]
  · exact List.reverse_reverse a
  · intro c hc; exact h2 c (List.mem_reverse.mp hc)
  · cases e : a.reverse with
    | nil => trivial
    | cons c r => exact h3 c (List.mem_reverse.mp (e ▸ by simp))
  · cases a with
    | nil => exact absurd rfl h4
    | cons c r => exact h3 c (by simp)

/-- C85.  From a line that ends the address is taken, without `0x`. -/
theorem C85_address {sp pre a sp' : List Char} (h1 : ∀ c ∈ sp, Space c) (h2 : ∀ c ∈ sp', Space c)
    (h3 : ∀ c ∈ a, ¬ Space c) (h4 : a ≠ []) (hp : pre = ['0', 'x'] ∨ pre = [] ∧ ¬ ['0', 'x'] <+: a) :
    returnAddress (sp ++ (pre ++ a) ++ sp' ++ ['\n']) = a := by
  have hs : pyStrip (sp ++ (pre ++ a) ++ sp') = pre ++ a := by
    refine pyStrip_spec h1 h2 ?_ (by simp [h4])
    intro c hc
    rcases List.mem_append.mp hc with hc | hc
    · rcases hp with rfl | ⟨rfl, -⟩
      · simp only [List.mem_cons, List.not_mem_nil, or_false] at hc
        rcases hc with rfl | rfl <;> (unfold Space; decide)
      · cases hc
    · exact h3 c hc
  unfold returnAddress
  simp only [List.dropLast_concat, hs]
  rcases hp with rfl | ⟨rfl, hn⟩
  · rfl
  · rw [List.nil_append, if_neg (by rw [List.isPrefixOf_iff_prefix]; exact hn)]

/-- **C85 fails** for the last line of a file without a newline at its end. -/
theorem C85_refuted_newline : returnAddress "0x401000".toList = "40100".toList := by decide +kernel

/-! ## Examples -/

theorem example_line : InsnLine " 401000:\te9 00\tjmpq 500000 <f>".toList "401000".toList "jmpq 500000 <f>".toList :=
  InsnLine.mk (sp := [' ']) (a := "401000".toList) (bytes := "e9 00".toList) (insn := "jmpq 500000 <f>".toList)
    (by decide) (by decide) (by decide) (by unfold Space; decide) (by decide)

example : FirstWords "jmpq 500000 <f>".toList "jmpq".toList "500000".toList :=
  ⟨"<f>".toList, " <f>".toList, by decide, by decide, by decide, by unfold Space; decide,
    by unfold Space; decide, .inr ⟨' ', by decide, by unfold Space; decide⟩⟩

/-- A disassembly of two instructions. -/
example : Listing [".dyninstInst:".toList, " 401000:\te9 00\tjmpq 500000 <f>".toList, []]
    [("401000".toList, "jmpq 500000 <f>".toList)] :=
  .other (.inr ⟨'.', "dyninstInst:".toList, by decide, by decide, by decide⟩)
    (.insn example_line (.other (.inl nofun) .nil))

/-- A function that jumps to its relocated code, and the complaint about another. -/
example : springLines (fun t => if t = "500000".toList then some "push %rax".toList else none)
    ["f:".toList, " 401000:\te9 00\tjmpq 500000 <f>".toList, [], "g:".toList, " 401010:\tc3\tretq".toList] =
    some ["g:".toList] := by decide +kernel

end Verif
