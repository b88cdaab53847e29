import Verif.CfPrint
import Verif.Props.CallGraph

/-!
# What the control flow printer says, and what the analysis records (C129)

The printer and `CallGraphAnalysis` sort edges by tests which are alike but not the same.  The specification is what the
analysis records (`CallsRecorded`, proved of it in C31).
-/

namespace Verif.Cf

theorem mem_notes {co : CodeObj} {f : Func} {n : Note} :
    n ∈ notes co f ↔ ∃ b e, HasEdge co f b e ∧ noteOf co e = some n := by
  simp only [notes, List.mem_flatMap, List.mem_filterMap, HasEdge]
  constructor
  · rintro ⟨b, hb, e, he, h⟩; exact ⟨b, e, ⟨hb, he⟩, h⟩
  · rintro ⟨b, e, ⟨hb, he⟩, h⟩; exact ⟨b, hb, e, he, h⟩

theorem note_unknown {co : CodeObj} {e : Edge} :
    noteOf co e = some .unknown ↔ e.sink = true ∧ e.type ≠ .ret := by
  unfold noteOf
  by_cases h1 : (e.sink && e.type != .ret) = true
  · rw [if_pos h1]; simpa using h1
  · rw [if_neg h1]
    have h2 : ¬ (e.sink = true ∧ e.type ≠ .ret) := by simpa using h1
    simp only [h2, iff_false]
    split
    · simp
    · split <;> simp

theorem note_call {co : CodeObj} {e : Edge} {g : Func} :
    noteOf co e = some (.call g) ↔ DirectCall co e g := by
  unfold noteOf DirectCall
  rw [← calleeAt_iff]
  obtain ⟨id, src, trg, type, sink, ip⟩ := e
  cases hl : co.linkage (co.start trg) <;> cases sink <;> cases type <;> simp

theorem note_plt {co : CodeObj} {e : Edge} : noteOf co e = some .plt ↔
    ¬ (e.sink = true ∧ e.type ≠ .ret) ∧ ∃ name, co.linkage (co.start e.trg) = some name := by
  unfold noteOf
  obtain ⟨id, src, trg, type, sink, ip⟩ := e
  cases hl : co.linkage (co.start trg) <;> cases sink <;> cases type <;> simp

theorem note_indirect {co : CodeObj} {e : Edge} : noteOf co e = some .indirect ↔
    e.type = .indirect ∧ e.sink = false ∧ co.linkage (co.start e.trg) = none := by
  unfold noteOf
  obtain ⟨id, src, trg, type, sink, ip⟩ := e
  cases hl : co.linkage (co.start trg) <;> cases sink <;> cases type <;> simp

/-- What each line means. -/
def Says (co : CodeObj) (e : Edge) : Note → Prop
  -- the target is not known, and it is no return
  | .unknown => e.sink = true ∧ e.type ≠ .ret
  -- the target is a stub
  | .plt => ¬ (e.sink = true ∧ e.type ≠ .ret) ∧ ∃ name, co.linkage (co.start e.trg) = some name
  | .call g => DirectCall co e g
  | .indirect => e.type = .indirect ∧ e.sink = false ∧ co.linkage (co.start e.trg) = none
  | .callFt => e.type = .callFt ∧ e.sink = false ∧ co.linkage (co.start e.trg) = none
  | .taken => e.type = .condTaken ∧ e.sink = false ∧ co.linkage (co.start e.trg) = none
  | .notTaken => e.type = .condNotTaken ∧ e.sink = false ∧ co.linkage (co.start e.trg) = none
  | .ret => e.type = .ret ∧ co.linkage (co.start e.trg) = none

theorem note_iff {co : CodeObj} {e : Edge} {n : Note} : noteOf co e = some n ↔ Says co e n := by
  cases n with
  | unknown => exact note_unknown
  | plt => exact note_plt
  | call g => exact note_call
  | indirect => exact note_indirect
  | _ =>
    unfold noteOf Says
    obtain ⟨id, src, trg, type, sink, ip⟩ := e
    cases hl : co.linkage (co.start trg) <;> cases sink <;> cases type <;> simp

/-- **C129** (calls).  The printer names exactly the functions which the analysis takes for callees. -/
theorem _root_.Verif.C129_calls (co : CodeObj) (S' : Sums) (h : cgRun co (fun _ => {}) = some S')
    (f : Func) (hf : f ∈ co.funcs) (g : Func) : .call g ∈ notes co f ↔ g ∈ (S' f).callees := by
  rw [mem_notes, (C31_calls_recorded co S' h f hf).1.callees g]
  simp only [note_call]

/-- **C129** (unknown).  It announces unknown control flow exactly when the analysis knows of some, or there is an
indirect tail call, which the analysis does not count. -/
theorem _root_.Verif.C129_unknown (co : CodeObj) (S' : Sums) (h : cgRun co (fun _ => {}) = some S')
    (f : Func) (hf : f ∈ co.funcs) : .unknown ∈ notes co f ↔ (S' f).hasUnknownCf = true ∨
      ∃ b e, HasEdge co f b e ∧ e.sink = true ∧ e.type = .indirect ∧ e.interproc = true := by
  rw [mem_notes, (C31_calls_recorded co S' h f hf).1.unknown]
  simp only [note_unknown, Unresolved]
  constructor
  · rintro ⟨b, e, he, h1, h2⟩
    by_cases h3 : e.type = .indirect ∧ e.interproc = true
    · exact .inr ⟨b, e, he, h1, h3⟩
    · exact .inl ⟨b, e, he, h1, h2, h3⟩
  · rintro (⟨b, e, he, h1, h2, _⟩ | ⟨b, e, he, h1, h2, _⟩)
    · exact ⟨b, e, he, h1, h2⟩
    · exact ⟨b, e, he, h1, by rw [h2]; decide⟩

/-- **C129** (library calls).  It announces calls through the linkage table whenever the analysis knows of one. -/
theorem _root_.Verif.C129_plt_partial (co : CodeObj) (S' : Sums) (h : cgRun co (fun _ => {}) = some S')
    (f : Func) (hf : f ∈ co.funcs) {a : Nat} {n : List Char} (hp : (a, n) ∈ (S' f).pltCalls) :
    .plt ∈ notes co f := by
  obtain ⟨b, e, he, _, h1, h2, h3⟩ := (C31_calls_recorded co S' h f hf).1.plt_sound a n hp
  exact mem_notes.2 ⟨b, e, he, note_plt.2 ⟨by simp [h2], n, h3⟩⟩

/-- **C129** (indirect).  It announces indirect control flow only when the analysis knows of some; then it announces that
or a call through the linkage table. -/
theorem _root_.Verif.C129_indirect (co : CodeObj) (S' : Sums) (h : cgRun co (fun _ => {}) = some S')
    (f : Func) (hf : f ∈ co.funcs) :
    (.indirect ∈ notes co f → (S' f).hasIndirectCf = true) ∧
    ((S' f).hasIndirectCf = true → .indirect ∈ notes co f ∨ .plt ∈ notes co f) := by
  rw [(C31_calls_recorded co S' h f hf).1.indirect]
  refine ⟨fun hm => ?_, ?_⟩
  · obtain ⟨b, e, he, hn⟩ := mem_notes.1 hm
    exact ⟨b, e, he, (note_indirect.1 hn).1, (note_indirect.1 hn).2.1⟩
  · rintro ⟨b, e, he, h1, h2⟩
    cases hl : co.linkage (co.start e.trg) with
    | none => exact .inl (mem_notes.2 ⟨b, e, he, note_indirect.2 ⟨h1, h2, hl⟩⟩)
    | some n => exact .inr (mem_notes.2 ⟨b, e, he, note_plt.2 ⟨by simp [h2], n, hl⟩⟩)

/-! ## Lines -/

/-- Three characters tell the texts apart. -/
def key (l : List Char) : Option Char × Option Char × Option Char := (l[0]?, l[5]?, l[12]?)

/-- Those of each text. -/
def Note.key : Note → Option Char × Option Char × Option Char
  | .unknown => (some 'U', some 'w', some 'r')
  | .plt => (some 'P', some 'a', some 'u')
  | .indirect => (some 'I', some 'e', some 't')
  | .callFt => (some 'C', some 'f', some 'r')
  | .taken => (some 'C', some 't', some 't')
  | .notTaken => (some 'C', some 't', some 'n')
  | .ret => (some 'R', some 'n', some '.')
  | .call _ => (some 'C', some 't', some 'c')

theorem text_key (name : Func → List Char) (a : Note) : Cf.key (a.text name) = a.key := by
  cases a <;> rfl

theorem between {p q x y : List Char} (h : p ++ x ++ q = p ++ y ++ q) : x = y :=
  List.append_cancel_left (List.append_cancel_right h)

theorem text_inj {name : Func → List Char} (hn : ∀ f g, name f = name g → f = g) {a b : Note}
    (h : a.text name = b.text name) : a = b := by
  have hk : a.key = b.key := by rw [← text_key name, ← text_key name, h]
  by_cases hc : ∃ f, a = .call f
  · obtain ⟨f, rfl⟩ := hc
    cases b with
    | call g =>
      exact congrArg _ (hn _ _ (between (p := "Call too function ".toList) (q := " found.".toList) h))
    | _ => simp [Note.key] at hk
  · cases a <;> first
      | exact absurd ⟨_, rfl⟩ hc
      | (cases b <;> simp [Note.key] at hk ⊢)

/-- No line about an edge looks like the last one. -/
theorem text_last {name : Func → List Char} (a : Note) (d : List Char) :
    a.text name ≠ "Number of basic blocks : ".toList ++ d := by
  intro h
  have hk := text_key name a
  rw [h] at hk
  have : Cf.key ("Number of basic blocks : ".toList ++ d) = (some 'N', some 'r', some 's') := rfl
  rw [this] at hk
  revert hk
  cases a <;> simp only [Note.key] <;> decide

/-- **C129** (lines).  Where no two functions have the same name, a line is printed exactly when what it
says is so of an edge; there is at most one line for each edge, and one for the number of blocks at the end. -/
theorem _root_.Verif.C129_lines (co : CodeObj) {name : Func → List Char}
    (hn : ∀ f g, name f = name g → f = g) (f : Func) :
    (∀ n, Note.text name n ∈ lines co name f ↔ ∃ b e, HasEdge co f b e ∧ Says co e n) ∧
    (lines co name f).length ≤ (edgesOf co f).length + 1 ∧
    (lines co name f).getLast? =
      some ("Number of basic blocks : ".toList ++ Nat.toDigits 10 (co.blocks f).length) := by
  refine ⟨fun n => ?_, ?_, ?_⟩
  · simp only [← note_iff]
    rw [← mem_notes]
    simp only [lines, List.mem_append, List.mem_map, List.mem_singleton]
    constructor
    · rintro (⟨m, hm, e⟩ | e)
      · rwa [← text_inj hn e]
      · exact absurd e (text_last _ _)
    · exact fun hm => .inl ⟨n, hm, rfl⟩
  · simp only [lines, List.length_append, List.length_map, List.length_singleton, notes, edgesOf]
    refine Nat.add_le_add_right ?_ 1
    induction co.blocks f with
    | nil => simp
    | cons b l ih =>
      simp only [List.flatMap_cons, List.length_append, List.length_map]
      exact Nat.add_le_add (List.length_filterMap_le ..) ih
  · simp [lines]

/-- **C129** (which function).  It is about the first function of that name; without one, or without an argument, it
dies. -/
theorem _root_.Verif.C129_run (name : Func → List Char) (co : CodeObj) (l : List (List Char)) :
    run name none = .dies ∧ (run name (some co) = .printed l ↔ ∃ pre f post, co.funcs = pre ++ f :: post ∧
      name f = "foo".toList ∧ (∀ g ∈ pre, name g ≠ "foo".toList) ∧ l = lines co name f) := by
  refine ⟨rfl, ?_⟩
  simp only [run]
  cases hf : co.funcs.find? fun f => name f == "foo".toList with
  | none =>
    simp only [reduceCtorEq, false_iff]
    rintro ⟨pre, f, post, e, h, _⟩
    rw [List.find?_eq_none] at hf
    exact hf f (by rw [e]; simp) (by simpa using h)
  | some f =>
    obtain ⟨h1, pre, post, h2, h3⟩ := List.find?_eq_some_iff_append.1 hf
    simp only [Result.printed.injEq]
    constructor
    · rintro rfl
      exact ⟨pre, f, post, h2, by simpa using h1, fun g hg => by simpa using h3 g hg, rfl⟩
    · rintro ⟨pre', f', post', e, h, hp, rfl⟩
      have : co.funcs.find? (fun f => name f == "foo".toList) = some f' :=
        List.find?_eq_some_iff_append.2 ⟨by simpa using h, pre', post', e, fun g hg => by simpa using hp g hg⟩
      rw [this] at hf
      cases hf; rfl

/-! ## Examples and what is not so -/

/-- Function 0 consists of block 0, with the given edges; function 1 is at block 1, and block 2 is a stub. -/
def demo (es : List Edge) : CodeObj where
  funcs := [0, 1]
  addr f := 16 * f
  entry f := f
  blocks f := [f]
  exitBlocks _ := []
  targets b := if b = 0 then es else []
  start b := 16 * b
  last b := 16 * b + 5
  funcsAt b := if b < 2 then [b] else []
  linkage a := if a = 32 then some "puts".toList else none

def demoName (f : Func) : List Char := if f = 0 then "foo".toList else List.replicate f 'x'

theorem demoName_inj (f g : Func) (h : demoName f = demoName g) : f = g := by
  unfold demoName at h
  split at h <;> split at h
  · rename_i h1 h2; exact h1.trans h2.symm
  · rename_i h1 h2
    have := congrArg List.head? h
    cases g with
    | zero => exact absurd rfl h2
    | succ g => simp [List.replicate_succ] at this
  · rename_i h1 h2
    have := congrArg List.head? h
    cases f with
    | zero => exact absurd rfl h1
    | succ f => simp [List.replicate_succ] at this
  · simpa using congrArg List.length h

/-- A function with a call, what follows it, a library call, and a return. -/
theorem _root_.Verif.C129_example : (∀ f g, demoName f = demoName g → f = g) ∧
    run demoName (some (demo [⟨0, 0, 1, .call, false, false⟩, ⟨1, 0, 0, .callFt, false, false⟩,
      ⟨2, 0, 2, .call, false, false⟩, ⟨3, 0, 9, .ret, true, false⟩])) =
    .printed ["Call too function x found.".toList, "Call fall through found.".toList, "PLT calls found.".toList,
      "Return found.".toList, "Number of basic blocks : 1".toList] := ⟨demoName_inj, by decide⟩

/-- **C129, what is not so.**  An indirect tail call is announced as unknown control flow, of which the analysis knows
nothing.  A jump to a library function is announced as a call, of which the analysis knows nothing.  Nothing at all is said
about a jump to another function. -/
theorem _root_.Verif.C129_refuted_agree : (∃ co f, .unknown ∈ notes co f ∧ (bodyOf co f).hasUnknownCf = false) ∧
    (∃ co f, .plt ∈ notes co f ∧ (bodyOf co f).pltCalls = []) ∧
    (∃ co f b e, HasEdge co f b e ∧ e.type = .direct ∧ co.entry 1 = e.trg ∧ f ≠ 1 ∧ notes co f = []) :=
  ⟨⟨demo [⟨0, 0, 9, .indirect, true, true⟩], 0, by decide, by decide⟩,
    ⟨demo [⟨0, 0, 2, .direct, false, true⟩], 0, by decide, by decide⟩,
    ⟨demo [⟨0, 0, 1, .direct, false, true⟩], 0, 0, ⟨0, 0, 1, .direct, false, true⟩, ⟨by decide, by decide⟩, rfl, rfl, by decide,
      by decide⟩⟩

end Verif.Cf
