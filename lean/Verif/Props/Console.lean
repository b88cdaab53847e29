import Verif.Console

/-! # C125: what the tool prints, in which colours and in which base -/

namespace Verif.Console

/-! ## Digits -/

theorem digitChar_clean (n : Nat) : Nat.digitChar n ≠ ESC := by
  by_cases h : n < 16
  · have : ∀ k : Fin 16, Nat.digitChar k.1 ≠ ESC := by decide
    exact this ⟨n, h⟩
  · have e : Nat.digitChar n = '*' := by
      unfold Nat.digitChar
      repeat rw [if_neg (by omega)]
    rw [e]
    decide

theorem toDigits_clean {b : Nat} (hb : 1 < b) (n : Nat) : ESC ∉ Nat.toDigits b n := by
  induction n using Nat.strongRecOn with
  | ind n ih =>
    by_cases h : n < b
    · rw [Nat.toDigits_of_lt_base h]
      simp only [List.mem_singleton]
      exact (digitChar_clean n).symm
    · rw [Nat.toDigits_of_base_le hb (by omega)]
      simp only [List.mem_append, List.mem_singleton, not_or]
      exact ⟨ih _ (Nat.div_lt_self (by omega) hb), (digitChar_clean _).symm⟩

theorem digits_clean (b : Base) (n : Int) : ESC ∉ digits b n := by
  cases b with
  | dec =>
    simp only [digits]
    split
    · simp only [List.mem_cons, not_or]
      exact ⟨by decide, toDigits_clean (by omega) _⟩
    · exact toDigits_clean (by omega) _
  | hex => exact toDigits_clean (by omega) _

/-! ## Messages without escape characters -/

def Item.Clean : Item → Prop
  | .text s | .real s => ESC ∉ s
  | _ => True

def Message.Clean (m : Message) : Prop := ∀ i ∈ m.items, i.Clean

/-- The base after a message. -/
def baseAfter (b : Base) : List Item → Base
  | [] => b
  | .hex :: is => baseAfter .hex is
  | .dec :: is => baseAfter .dec is
  | _ :: is => baseAfter b is

/-- The look after a message. -/
def lookAfter (l : Look) : List Item → Look
  | [] => l
  | .endl :: is => lookAfter {} is
  | _ :: is => lookAfter l is

/-- What a message puts into a stream. -/
def emitted (b : Base) : List Item → List Char
  | [] => []
  | .text s :: is | .real s :: is => s ++ emitted b is
  | .num n :: is => digits b n ++ emitted b is
  | .hex :: is => emitted .hex is
  | .dec :: is => emitted .dec is
  | .endl :: is => endCode ++ ['\n'] ++ emitted b is

theorem put_items (s : Stream) (is : List Item) :
    is.foldl Stream.put s = ⟨baseAfter s.base is, s.out ++ emitted s.base is⟩ := by
  induction is generalizing s with
  | nil => simp [baseAfter, emitted]
  | cons i is ih =>
    rw [List.foldl_cons, ih]
    cases i <;> simp [Stream.put, baseAfter, emitted]

theorem read_text {s : List Char} (hs : ESC ∉ s) (l : Look) (cells : List (Char × Look)) :
    s.foldl Terminal.read ⟨.text, l, cells⟩ = ⟨.text, l, cells ++ s.map (·, l)⟩ := by
  induction s generalizing cells with
  | nil => simp
  | cons c s ih =>
    simp only [List.mem_cons, not_or] at hs
    rw [List.foldl_cons]
    have : Terminal.read ⟨.text, l, cells⟩ c = ⟨.text, l, cells ++ [(c, l)]⟩ := by
      simp [Terminal.read, Ne.symm hs.1]
    rw [this, ih hs.2]
    simp

theorem read_color (c : Color) (l : Look) (cells : List (Char × Look)) :
    (endCode ++ c.code).foldl Terminal.read ⟨.text, l, cells⟩ = ⟨.text, c.look, cells⟩ := by
  cases c with
  | off => rfl
  | plain h => cases h <;> rfl
  | bold h => cases h <;> rfl

theorem read_end (l : Look) (cells : List (Char × Look)) :
    (endCode ++ ['\n']).foldl Terminal.read ⟨.text, l, cells⟩ = ⟨.text, ({} : Look), cells ++ [('\n', ({} : Look))]⟩ := rfl

theorem read_items {is : List Item} (h : ∀ i ∈ is, i.Clean) (b : Base) (l : Look) (cells : List (Char × Look)) :
    (emitted b is).foldl Terminal.read ⟨.text, l, cells⟩ = ⟨.text, lookAfter l is, cells ++ shown l b is⟩ := by
  induction is generalizing b l cells with
  | nil => simp [emitted, lookAfter, shown]
  | cons i is ih =>
    have h0 := h i (List.mem_cons_self ..)
    have ih := fun b l cells => ih (fun j hj => h j (List.mem_cons_of_mem _ hj)) b l cells
    cases i with
    | text s | real s =>
      simp only [emitted, lookAfter, shown, List.foldl_append]
      rw [read_text h0, ih, List.append_assoc]
    | num n =>
      simp only [emitted, lookAfter, shown, List.foldl_append]
      rw [read_text (digits_clean b n), ih, List.append_assoc]
    | hex | dec => exact ih _ _ _
    | endl =>
      simp only [emitted, lookAfter, shown]
      rw [List.foldl_append, read_end, ih, List.append_assoc]
      rfl

/-- What is shown of messages if the stream has a base. -/
def shownFrom (b : Base) : List Message → List (Char × Look)
  | [] => []
  | m :: ms => if m.logged then shown m.color.look b m.items ++ shownFrom (baseAfter b m.items) ms else shownFrom b ms

/-- The base after messages. -/
def baseFrom (b : Base) : List Message → Base
  | [] => b
  | m :: ms => baseFrom (if m.logged then baseAfter b m.items else b) ms

/-- The look after messages. -/
def lookFrom (l : Look) : List Message → Look
  | [] => l
  | m :: ms => lookFrom (if m.logged then lookAfter m.color.look m.items else l) ms

theorem display_messages {ms : List Message} (h : ∀ m ∈ ms, m.Clean) (s : Streams) (l : Look) (cells : List (Char × Look))
    (hd : s.cout.out.foldl Terminal.read {} = ⟨.text, l, cells⟩) :
    (ms.foldl Streams.say s).cout.base = baseFrom s.cout.base ms ∧
    (ms.foldl Streams.say s).cout.out.foldl Terminal.read {} = ⟨.text, lookFrom l ms, cells ++ shownFrom s.cout.base ms⟩ := by
  induction ms generalizing s l cells with
  | nil => simpa [baseFrom, lookFrom, shownFrom] using hd
  | cons m ms ih =>
    have ih := fun s l cells => ih (fun j hj => h j (List.mem_cons_of_mem _ hj)) s l cells
    simp only [List.foldl_cons, baseFrom, lookFrom, shownFrom]
    cases hl : m.logged with
    | false =>
      simp only [Streams.say, hl, Bool.false_eq_true, if_false]
      exact ih _ l cells hd
    | true =>
      simp only [Streams.say, hl, if_true, put_items]
      rw [← List.append_assoc cells]
      refine ih ⟨⟨_, _⟩, _⟩ _ _ ?_
      simp only [List.foldl_append]
      rw [← List.foldl_append (l := endCode), hd, read_color, read_items (h m (List.mem_cons_self ..))]

theorem shown_append (b : Base) (ms ms' : List Message) :
    shownFrom b (ms ++ ms') = shownFrom b ms ++ shownFrom (baseFrom b ms) ms' := by
  induction ms generalizing b with
  | nil => rfl
  | cons m ms ih =>
    simp only [List.cons_append, shownFrom, baseFrom]
    split <;> simp [ih]

theorem base_append (b : Base) (ms ms' : List Message) : baseFrom b (ms ++ ms') = baseFrom (baseFrom b ms) ms' := by
  induction ms generalizing b with
  | nil => rfl
  | cons m ms ih => exact ih _

/-! ## Bases -/

theorem wanted_cons (m : Message) (ms : List Message) :
    wanted (m :: ms) = (if m.logged then shown m.color.look .dec m.items else []) ++ wanted ms := by
  simp only [wanted, List.filter_cons]
  split <;> simp

theorem wanted_append (ms ms' : List Message) : wanted (ms ++ ms') = wanted ms ++ wanted ms' := by
  simp [wanted]

/-- Messages which leave the base alone. -/
theorem shown_still {ms : List Message} (h : ∀ m ∈ ms, ∀ b, baseAfter b m.items = b) (b : Base) :
    baseFrom b ms = b ∧ shownFrom b ms = (ms.filter Message.logged).flatMap fun m => shown m.color.look b m.items := by
  induction ms with
  | nil => exact ⟨rfl, rfl⟩
  | cons m ms ih =>
    have ih := ih fun j hj => h j (List.mem_cons_of_mem _ hj)
    have h0 := h m (List.mem_cons_self ..) b
    simp only [baseFrom, shownFrom, h0, ite_self, List.filter_cons]
    refine ⟨ih.1, ?_⟩
    split
    · rw [ih.2, List.flatMap_cons]
    · exact ih.2

theorem fn_shown (fl : Flags) (b : Base) (fs : List Fn) :
    shownFrom b (fs.flatMap (fnMessages fl)) = wanted (fs.flatMap (fnMessages fl)) ∧
    baseFrom b (fs.flatMap (fnMessages fl)) =
      if fl.vv && fl.light && fs.any fun f => f.fate == .lowered || f.fate == .fast then .hex else b := by
  obtain ⟨vv, libs, light, trust⟩ := fl
  induction fs generalizing b with
  | nil => simp [shownFrom, wanted, baseFrom]
  | cons f fs ih =>
    rw [List.flatMap_cons, shown_append, base_append, wanted_append, (ih _).1, (ih _).2]
    obtain ⟨name, addr, fate⟩ := f
    cases vv <;> cases light <;> cases fate <;>
      simp [fnMessages, shownFrom, baseFrom, baseAfter, wanted, shown]

theorem analysis_still (fl : Flags) (o : Object) : ∀ m ∈ analysis fl o, ∀ b, baseAfter b m.items = b := by
  intro m hm b
  simp only [analysis] at hm
  split at hm
  · rcases List.mem_append.1 hm with hm | hm
    · obtain ⟨p, _, hm⟩ := List.mem_flatMap.1 hm
      simp only [passMessages, List.mem_append, List.mem_map, List.mem_singleton] at hm
      rcases hm with (hm | ⟨x, _, rfl⟩) | rfl
      · split at hm
        · simp only [List.mem_cons, List.not_mem_nil, or_false] at hm
          rcases hm with rfl | rfl | rfl <;> rfl
        · cases hm
      · rfl
      · rfl
    · simp only [summaryMessages] at hm
      split at hm
      · simp only [List.mem_cons, List.not_mem_nil, or_false] at hm
        rcases hm with rfl | rfl | rfl | rfl <;> rfl
      · cases hm
  · cases hm

theorem header_shown (fl : Flags) (o : Object) (b : Base) :
    shownFrom b [objectHeader fl o] = wanted [objectHeader fl o] ∧ baseFrom b [objectHeader fl o] = b := by
  obtain ⟨vv, libs, light, trust⟩ := fl
  cases vv <;> cases h : o.shared <;>
    simp [objectHeader, h, shownFrom, baseFrom, baseAfter, wanted, shown]

theorem objects_shown (fl : Flags) (b : Base) (os : List Object) :
    shownFrom b (os.flatMap (objectMessages fl)) = drifted fl b os := by
  induction os generalizing b with
  | nil => rfl
  | cons o os ih =>
    rw [List.flatMap_cons, shown_append, ih, drifted]
    have e : objectMessages fl o = [objectHeader fl o] ++ if o.passed fl then [] else analysis fl o ++ o.funcs.flatMap (fnMessages fl) := rfl
    rw [e, shown_append, base_append, (header_shown fl o b).1, (header_shown fl o b).2]
    cases hp : o.passed fl with
    | true => simp [shownFrom, baseFrom, Object.spoils, hp]
    | false =>
      simp only [Bool.false_eq_true, if_false, shown_append, base_append, (shown_still (analysis_still fl o) b).1,
        (shown_still (analysis_still fl o) b).2, fn_shown, Object.spoils, hp, Bool.not_false, Bool.and_true]

theorem report_shown (fl : Flags) (os : List Object) (t : Totals) (pct : Int → Nat → List Char) (b : Base) :
    shownFrom b (report fl os t pct) = wanted (report fl os t pct) ∧ lookFrom {} (report fl os t pct) = {} := by
  constructor <;> simp [report, shownFrom, baseAfter, wanted, shown, lookFrom, lookAfter]

theorem greeting_shown (fl : Flags) (b : Base) : shownFrom b (greeting fl) = wanted (greeting fl) ∧ baseFrom b (greeting fl) = b := by
  obtain ⟨vv, libs, light, trust⟩ := fl
  cases vv <;> simp [greeting, shownFrom, baseFrom, baseAfter, wanted, shown]

/-! ## No escape characters -/

theorem clean_lit {s : String} (h : s.toList.all (· != ESC) = true) : ESC ∉ s.toList := by
  intro hm
  have := List.all_eq_true.1 h ESC hm
  simp at this

theorem fn_clean {fl : Flags} {f : Fn} (h : ESC ∉ f.name) : ∀ m ∈ fnMessages fl f, m.Clean := by
  obtain ⟨name, addr, fate⟩ := f
  obtain ⟨vv, libs, light, trust⟩ := fl
  replace h : ESC ∉ name := h
  cases light <;> cases fate <;>
    simp only [fnMessages, Message.Clean, List.forall_mem_cons, Item.Clean, if_true, Bool.false_eq_true, if_false, List.not_mem_nil,
      false_implies, implies_true, and_true, h, not_false_eq_true] <;>
    repeat' constructor
  all_goals exact clean_lit (by decide)

theorem pass_clean {fl : Flags} {p : PassRun} (h1 : ESC ∉ p.name) (h2 : ESC ∉ p.description) (h3 : ∀ x ∈ p.large, ESC ∉ x.1) :
    ∀ m ∈ passMessages fl p, m.Clean := by
  intro m hm
  simp only [passMessages, List.mem_append, List.mem_map, List.mem_singleton] at hm
  rcases hm with (hm | ⟨x, hx, rfl⟩) | rfl
  · split at hm
    · simp only [List.mem_cons, List.not_mem_nil, or_false] at hm
      rcases hm with rfl | rfl | rfl <;>
        simp only [Message.Clean, List.forall_mem_cons, Item.Clean, List.not_mem_nil, false_implies, implies_true, and_true, h1, h2,
          not_false_eq_true]
      all_goals exact clean_lit (by decide)
    · cases hm
  · simp only [Message.Clean, List.forall_mem_cons, Item.Clean, List.not_mem_nil, false_implies, implies_true, and_true, h3 x hx,
      not_false_eq_true, true_and]
    exact ⟨clean_lit (by decide), clean_lit (by decide)⟩
  · simp only [Message.Clean, List.forall_mem_cons, Item.Clean, List.not_mem_nil, false_implies, implies_true, and_true]
    exact clean_lit (by decide)

theorem summary_clean {fl : Flags} {o : Object} : ∀ m ∈ summaryMessages fl o, m.Clean := by
  intro m hm
  simp only [summaryMessages] at hm
  split at hm
  · simp only [List.mem_cons, List.not_mem_nil, or_false] at hm
    rcases hm with rfl | rfl | rfl | rfl <;>
      simp only [Message.Clean, List.forall_mem_cons, Item.Clean, List.not_mem_nil, false_implies, implies_true, and_true, true_and]
    all_goals repeat' constructor
    all_goals exact clean_lit (by decide)
  · cases hm

theorem header_clean {fl : Flags} {o : Object} (h : ESC ∉ o.path) : (objectHeader fl o).Clean := by
  unfold objectHeader
  split <;>
    simp only [Message.Clean, List.forall_mem_cons, Item.Clean, List.not_mem_nil, false_implies, implies_true, and_true, h,
      not_false_eq_true] <;>
    exact clean_lit (by decide)

theorem report_clean {fl : Flags} {os : List Object} {t : Totals} {pct : Int → Nat → List Char} (h : ∀ n k, ESC ∉ pct n k) :
    ∀ m ∈ report fl os t pct, m.Clean := by
  simp only [report, Message.Clean, List.forall_mem_cons, Item.Clean, List.not_mem_nil, false_implies, implies_true, and_true, true_and,
    h, not_false_eq_true]
  repeat' constructor
  all_goals exact clean_lit (by decide)

theorem greeting_clean {fl : Flags} : ∀ m ∈ greeting fl, m.Clean := by
  simp only [greeting, Message.Clean, List.forall_mem_cons, Item.Clean, List.not_mem_nil, false_implies, implies_true, and_true]
  repeat' constructor
  all_goals exact clean_lit (by decide)

theorem messages_clean {fl : Flags} {os : List Object} {t : Totals} {pct : Int → Nat → List Char} (h : Clean os pct) :
    ∀ m ∈ messages fl os t pct, m.Clean := by
  intro m hm
  rcases List.mem_append.1 hm with hm | hm
  · rcases List.mem_append.1 hm with hm | hm
    · exact greeting_clean m hm
    · obtain ⟨o, ho, hm⟩ := List.mem_flatMap.1 hm
      replace ho : o ∈ os := (List.mem_filter.1 ho).1
      rcases List.mem_cons.1 hm with rfl | hm
      · exact header_clean (h.path o ho)
      · split at hm
        · cases hm
        · rcases List.mem_append.1 hm with hm | hm
          · unfold analysis at hm
            split at hm
            · rcases List.mem_append.1 hm with hm | hm
              · obtain ⟨p, hp, hm⟩ := List.mem_flatMap.1 hm
                obtain ⟨h1, h2, h3⟩ := h.pass o ho p hp
                exact pass_clean h1 h2 h3 m hm
              · exact summary_clean m hm
            · cases hm
          · obtain ⟨f, hf, hm⟩ := List.mem_flatMap.1 hm
            exact fn_clean (h.fn o ho f hf) m hm
  · exact report_clean h.pct m hm

theorem look_append (l : Look) (ms ms' : List Message) : lookFrom l (ms ++ ms') = lookFrom (lookFrom l ms) ms' := by
  induction ms generalizing l with
  | nil => rfl
  | cons m ms ih => exact ih _

theorem report_look (l : Look) (fl : Flags) (os : List Object) (t : Totals) (pct : Int → Nat → List Char) :
    lookFrom l (report fl os t pct) = {} := by
  simp [report, lookFrom, lookAfter]

theorem drifted_passed (fl : Flags) (os : List Object) (b : Base) (hp : ∀ p ∈ os, p.passed fl = true) :
    drifted fl b os = wanted (os.flatMap (objectMessages fl)) := by
  induction os generalizing b with
  | nil => rfl
  | cons p os ih =>
    have hp0 := hp p (List.mem_cons_self ..)
    rw [drifted, ih _ fun q hq => hp q (List.mem_cons_of_mem _ hq), List.flatMap_cons, wanted_append]
    simp [objectMessages, hp0]

theorem drifted_dec (fl : Flags) (os : List Object)
    (h : ∀ pre o post, os = pre ++ o :: post → o.spoils fl = true → ∀ p ∈ post, p.passed fl = true) :
    drifted fl .dec os = wanted (os.flatMap (objectMessages fl)) := by
  induction os with
  | nil => rfl
  | cons o os ih =>
    have ih := ih fun pre p post e => h (o :: pre) p post (by rw [e]; rfl)
    rw [List.flatMap_cons, wanted_append, drifted]
    have e : objectMessages fl o = [objectHeader fl o] ++ if o.passed fl then [] else analysis fl o ++ o.funcs.flatMap (fnMessages fl) := rfl
    have et : drifted fl (if o.spoils fl = true then .hex else .dec) os = wanted (os.flatMap (objectMessages fl)) := by
      split
      · exact drifted_passed _ _ _ (h [] o os rfl ‹_›)
      · exact ih
    rw [et, e, wanted_append]
    congr 2
    split
    · rfl
    · rw [wanted_append]
      rfl

/-! ## The claims -/

/-- C125: what a terminal shows of the tool's output: every message in its colour, nothing of the control sequences, and numbers in
decimal, except that counts of an analysis are hexadecimal once an earlier object has had a function lowered. -/
theorem _root_.Verif.C125_exact (fl : Flags) (os : List Object) (t : Totals) (pct : Int → Nat → List Char) (h : Clean os pct) :
    (display (say (messages fl os t pct)).cout.out).cells =
      wanted (greeting fl) ++ drifted fl .dec (chosen fl os) ++ wanted (report fl os t pct) := by
  have := (display_messages (messages_clean (fl := fl) (t := t) h) {} {} [] rfl).2
  unfold display say
  rw [this]
  simp only [messages, shown_append, List.nil_append, objects_shown, (report_shown _ _ _ _ _).1, (greeting_shown fl _).1,
    (greeting_shown fl _).2]

/-- C125: whatever was printed before, the report at the end is as wanted, and the terminal is left reading text, with the look it
had before the tool ran. -/
theorem _root_.Verif.C125_report (fl : Flags) (os : List Object) (t : Totals) (pct : Int → Nat → List Char) (h : Clean os pct) :
    (∃ cells, (display (say (messages fl os t pct)).cout.out).cells = cells ++ wanted (report fl os t pct)) ∧
    (display (say (messages fl os t pct)).cout.out).look = {} ∧ (display (say (messages fl os t pct)).cout.out).mode = .text := by
  refine ⟨⟨_, C125_exact fl os t pct h⟩, ?_⟩
  have := (display_messages (messages_clean (fl := fl) (t := t) h) {} {} [] rfl).2
  unfold display say
  rw [this]
  exact ⟨by simp only [messages, look_append, report_look], rfl⟩

/-- C125, as far as it holds: all numbers are in the base which the message says if nothing is analysed after an object with a
lowered function.  Missing: otherwise it is false (`C125_refuted_decimal`). -/
theorem _root_.Verif.C125_decimal_partial (fl : Flags) (os : List Object) (t : Totals) (pct : Int → Nat → List Char) (h : Clean os pct)
    (hs : ∀ pre o post, chosen fl os = pre ++ o :: post → o.spoils fl = true → ∀ p ∈ post, p.passed fl = true) :
    (display (say (messages fl os t pct)).cout.out).cells = wanted (messages fl os t pct) := by
  rw [C125_exact fl os t pct h, drifted_dec fl _ hs]
  simp only [messages, wanted_append]

theorem wanted_quiet {ms : List Message} (h : ∀ m ∈ ms, m.logged = false) : wanted ms = [] := by
  simp only [wanted]
  rw [List.filter_eq_nil_iff.2 fun m hm => by simp [h m hm]]
  rfl

/-- C125: without `--vv` only one line and the report are shown. -/
theorem _root_.Verif.C125_quiet (fl : Flags) (os : List Object) (t : Totals) (pct : Int → Nat → List Char) (h : Clean os pct)
    (hv : fl.vv = false) :
    (display (say (messages fl os t pct)).cout.out).cells =
      "+ Instrumenting the binary...".toList.map (·, blue.look) ++ ('\n', ({} : Look)) :: wanted (report fl os t pct) := by
  rw [C125_decimal_partial fl os t pct h fun pre o post _ hs => by simp [Object.spoils, hv] at hs]
  have hq : ∀ m ∈ (chosen fl os).flatMap (objectMessages fl), m.logged = false := by
    intro m hm
    obtain ⟨o, ho, hm⟩ := List.mem_flatMap.1 hm
    rcases List.mem_cons.1 hm with rfl | hm
    · unfold objectHeader
      split <;> exact hv
    · split at hm
      · cases hm
      · rcases List.mem_append.1 hm with hm | hm
        · unfold analysis at hm
          split at hm
          · rcases List.mem_append.1 hm with hm | hm
            · obtain ⟨p, hp, hm⟩ := List.mem_flatMap.1 hm
              simp only [passMessages, hv, Bool.false_eq_true, if_false, List.nil_append, List.mem_append, List.mem_map,
                List.mem_singleton] at hm
              rcases hm with ⟨x, _, rfl⟩ | rfl <;> rfl
            · simp [summaryMessages, hv] at hm
          · cases hm
        · obtain ⟨f, hf, hm⟩ := List.mem_flatMap.1 hm
          obtain ⟨name, addr, fate⟩ := f
          obtain ⟨vv, libs, light, trust⟩ := fl
          simp only at hv
          subst hv
          cases light <;> cases fate <;> simp [fnMessages] at hm <;> rcases hm with rfl | rfl <;> rfl
  simp only [messages, wanted_append, wanted_quiet hq, List.append_nil]
  simp only [greeting, hv, wanted, List.filter_cons, Bool.false_eq_true, if_false, if_true, List.filter_nil, List.flatMap_cons,
    List.flatMap_nil, List.append_nil, shown, List.append_assoc, List.cons_append, List.nil_append]

/-! ## Disagreement, and an example -/

def exFlags : Flags := ⟨true, true, true, false⟩

/-- A library with a lowered function, and the application, of which sixteen functions are safe. -/
def exObjects : List Object :=
  [⟨true, "libm.so".toList, false, [], 1, 0, 1, [⟨"sin".toList, 4096, .lowered⟩]⟩,
   ⟨false, "app".toList, false, [⟨"Leaf".toList, "leaves".toList, [("main".toList, 1000)], 16⟩], 2, 16, 4, []⟩]

def exTotals : Totals := ⟨0, 0, 0, 10, 4, 1, 2, 1, 1, 0, 0, 0, 0, 0⟩

def exPct (n : Int) (k : Nat) : List Char := Nat.toDigits 10 (n.toNat * 100 / k)

theorem _root_.Verif.C125_example : Clean exObjects exPct := by
  refine ⟨?_, ?_, ?_, fun n k => toDigits_clean (by omega) _⟩ <;> decide

/-- `10` instead of `16`. -/
theorem _root_.Verif.C125_refuted_decimal :
    ¬ ∀ fl os t pct, Clean os pct → (display (say (messages fl os t pct)).cout.out).cells = wanted (messages fl os t pct) := by
  intro h
  have h1 := h exFlags exObjects exTotals exPct C125_example
  rw [C125_exact _ _ _ _ C125_example] at h1
  simp only [messages, wanted_append] at h1
  have h2 := congrArg (List.map Prod.fst) h1
  revert h2
  decide +kernel

end Verif.Console
