import Verif.StatsFile
import Verif.Props.DeadPass
import Verif.Props.Plan

/-!
# C76: the statistics file
-/

namespace Verif

/-! ## Specification -/

/-- A decimal digit and its value. -/
def DecDigit (c : Char) (d : Nat) : Prop :=
  (c, d) ∈ [('0', 0), ('1', 1), ('2', 2), ('3', 3), ('4', 4), ('5', 5), ('6', 6), ('7', 7),
    ('8', 8), ('9', 9)]

/-- Digits and the number they stand for, following the number `n`. -/
inductive DecFrom : Nat → List Char → Nat → Prop
  | nil {n} : DecFrom n [] n
  | cons {n c d s v} : DecDigit c d → DecFrom (10 * n + d) s v → DecFrom n (c :: s) v

/-- A number in decimal notation. -/
inductive DecNum : List Char → Int → Prop
  | pos {c s v} : DecFrom 0 (c :: s) v → DecNum (c :: s) v
  | neg {c s v} : DecFrom 0 (c :: s) v → DecNum ('-' :: c :: s) (-v)

/-- Names on lines of their own. -/
inductive Lines : List Char → List String → Prop
  | nil : Lines [] []
  | cons {x s l} : x.toList ≠ [] → '\n' ∉ x.toList → Lines s l →
      Lines (x.toList ++ '\n' :: s) (x :: l)

/-- The format described at `/repo/src/pass_manager.h:421-429`. -/
inductive StatsFormat : List Char → Int → Int → List String → Int → Prop
  | mk {a b s c n m l e} : DecNum a n → DecNum b m → Lines s l → DecNum c e →
      StatsFormat (a ++ ',' :: b ++ '\n' :: '\n' ::
        (s ++ "\nelapsed (seconds) : ".toList ++ c)) n m l e

/-! ## Numbers -/

theorem decDigit_lt {c : Char} {d : Nat} (h : DecDigit c d) : d < 10 := by
  unfold DecDigit at h
  simp only [List.mem_cons, Prod.mk.injEq, List.not_mem_nil, or_false] at h
  omega

theorem decDigit_char {d : Nat} (h : d < 10) : DecDigit (Nat.digitChar d) d := by
  have : ∀ d : Fin 10, (Nat.digitChar d.1, d.1) ∈ [('0', 0), ('1', 1), ('2', 2), ('3', 3), ('4', 4),
    ('5', 5), ('6', 6), ('7', 7), ('8', 8), ('9', 9)] := by decide
  exact this ⟨d, h⟩

theorem decDigit_det {c : Char} {d d' : Nat} (h : DecDigit c d) (h' : DecDigit c d') : d = d' := by
  unfold DecDigit at h h'
  simp only [List.mem_cons, Prod.mk.injEq, List.not_mem_nil, or_false] at h h'
  rcases h with ⟨rfl, rfl⟩ | h
  · simp at h'; exact h'.symm
  iterate 8
    rcases h with ⟨rfl, rfl⟩ | h
    · simp at h'; exact h'.symm
  obtain ⟨rfl, rfl⟩ := h
  simp at h'; exact h'.symm

theorem decDigit_ne {c : Char} {d : Nat} (h : DecDigit c d) : c ≠ ',' ∧ c ≠ '\n' ∧ c ≠ '-' := by
  unfold DecDigit at h
  simp only [List.mem_cons, Prod.mk.injEq, List.not_mem_nil, or_false] at h
  refine ⟨?_, ?_, ?_⟩ <;> (rintro rfl; simp at h)

theorem decFrom_append {n v w : Nat} {s t : List Char} (h : DecFrom n s v) (h' : DecFrom v t w) :
    DecFrom n (s ++ t) w := by
  induction h with
  | nil => exact h'
  | cons hd _ ih => exact .cons hd (ih h')

theorem decFrom_det {n v w : Nat} {s : List Char} (h : DecFrom n s v) (h' : DecFrom n s w) :
    v = w := by
  induction h with
  | nil => cases h'; rfl
  | cons hd _ ih =>
    cases h' with
    | cons hd' h' =>
      rw [decDigit_det hd' hd] at h'
      exact ih h'

theorem decFrom_chars {n v : Nat} {s : List Char} (h : DecFrom n s v) :
    ∀ c ∈ s, c ≠ ',' ∧ c ≠ '\n' ∧ c ≠ '-' := by
  induction h with
  | nil => nofun
  | cons hd _ ih =>
    intro c hc
    rcases List.mem_cons.1 hc with rfl | hc
    · exact decDigit_ne hd
    · exact ih c hc

theorem decDigits_ne (n : Nat) : ∃ c s, decDigits n = c :: s := by
  unfold decDigits
  split
  · exact ⟨_, _, rfl⟩
  · cases decDigits (n / 10) with
    | nil => exact ⟨_, _, rfl⟩
    | cons c s => exact ⟨_, _, rfl⟩

theorem decDigits_from (n : Nat) : DecFrom 0 (decDigits n) n := by
  induction n using Nat.strongRecOn with
  | _ n ih =>
    unfold decDigits
    split
    · rename_i h
      have := DecFrom.cons (n := 0) (s := []) (decDigit_char h) .nil
      simpa using this
    · rename_i h
      refine decFrom_append (ih (n / 10) (by omega)) ?_
      have := DecFrom.cons (n := n / 10) (s := []) (decDigit_char (Nat.mod_lt n (by omega))) .nil
      rwa [Nat.div_add_mod] at this

theorem decInt_num (n : Int) : DecNum (decInt n) n := by
  cases n with
  | ofNat n =>
    obtain ⟨c, s, e⟩ := decDigits_ne n
    have := decDigits_from n
    simp only [decInt]
    rw [e] at this ⊢
    exact .pos this
  | negSucc n =>
    obtain ⟨c, s, e⟩ := decDigits_ne (n + 1)
    have := decDigits_from (n + 1)
    simp only [decInt]
    rw [e] at this ⊢
    exact .neg this

theorem decNum_chars {s : List Char} {n : Int} (h : DecNum s n) : ',' ∉ s ∧ '\n' ∉ s := by
  cases h with
  | pos h => exact ⟨fun hm => (decFrom_chars h _ hm).1 rfl, fun hm => (decFrom_chars h _ hm).2.1 rfl⟩
  | neg h =>
    refine ⟨fun hm => ?_, fun hm => ?_⟩
    · rcases List.mem_cons.1 hm with e | hm
      · exact absurd e (by decide)
      · exact (decFrom_chars h _ hm).1 rfl
    · rcases List.mem_cons.1 hm with e | hm
      · exact absurd e (by decide)
      · exact (decFrom_chars h _ hm).2.1 rfl

theorem decNum_det {s : List Char} {n m : Int} (h : DecNum s n) (h' : DecNum s m) : n = m := by
  cases h with
  | pos h =>
    cases h' with
    | pos h' => rw [decFrom_det h h']
    | neg _ => exact absurd rfl (decFrom_chars h '-' List.mem_cons_self).2.2
  | neg h =>
    cases h' with
    | pos h' => exact absurd rfl (decFrom_chars h' '-' List.mem_cons_self).2.2
    | neg h' => rw [decFrom_det h h']

/-! ## Reading the format -/

theorem split_first {c : Char} {a b s t : List Char} (ha : c ∉ a) (hb : c ∉ b)
    (h : a ++ c :: s = b ++ c :: t) : a = b ∧ s = t := by
  induction a generalizing b with
  | nil =>
    cases b with
    | nil => exact ⟨rfl, by injection h⟩
    | cons y b =>
      injection h with h1 h2
      exact absurd (List.mem_cons.2 (.inl h1)) hb
  | cons x a ih =>
    cases b with
    | nil =>
      injection h with h1 h2
      exact absurd (List.mem_cons.2 (.inl h1.symm)) ha
    | cons y b =>
      injection h with h1 h2
      obtain ⟨e1, e2⟩ := ih (fun hm => ha (List.mem_cons_of_mem _ hm))
        (fun hm => hb (List.mem_cons_of_mem _ hm)) h2
      exact ⟨by rw [h1, e1], e2⟩

theorem lines_det {s t : List Char} {l k : List String} (h : Lines s l) (h' : Lines t k)
    {r q : List Char} (e : s ++ '\n' :: r = t ++ '\n' :: q) : l = k ∧ r = q := by
  induction h generalizing t k with
  | nil =>
    cases h' with
    | nil => exact ⟨rfl, by injection e⟩
    | @cons x s l h1 h2 _ =>
      cases hx : x.toList with
      | nil => exact absurd hx h1
      | cons c x' =>
        rw [hx] at e h2
        injection e with e _
        exact absurd (List.mem_cons.2 (.inl e)) h2
  | @cons x s l h1 h2 _ ih =>
    cases h' with
    | nil =>
      cases hx : x.toList with
      | nil => exact absurd hx h1
      | cons c x' =>
        rw [hx] at e h2
        injection e with e _
        exact absurd (List.mem_cons.2 (.inl e.symm)) h2
    | @cons y t k h1' h2' h3' =>
      rw [List.append_assoc, List.append_assoc, List.cons_append, List.cons_append] at e
      obtain ⟨e1, e2⟩ := split_first h2 h2' e
      obtain ⟨e3, e4⟩ := ih h3' e2
      exact ⟨by rw [e3, String.toList_inj.1 e1], e4⟩

/-- C76.  The format can be read in one way only: a file determines both counts, the names and
the time. -/
theorem C76_unambiguous {t : List Char} {n m n' m' : Int} {l l' : List String} {e e' : Int}
    (h : StatsFormat t n m l e) (h' : StatsFormat t n' m' l' e') :
    n = n' ∧ m = m' ∧ l = l' ∧ e = e' := by
  generalize ht : t = t' at h'
  cases h with
  | @mk a b s c _ _ _ _ h1 h2 h3 h4 =>
    cases h' with
    | @mk a' b' s' c' _ _ _ _ h1' h2' h3' h4' =>
      simp only [List.append_assoc, List.cons_append] at ht
      obtain ⟨e1, e2⟩ := split_first (decNum_chars h1).1 (decNum_chars h1').1 ht
      obtain ⟨e3, e4⟩ := split_first (decNum_chars h2).2 (decNum_chars h2').2 e2
      injection e4 with _ e4
      have hq : "\nelapsed (seconds) : ".toList = '\n' :: "elapsed (seconds) : ".toList := by
        decide +kernel
      rw [hq, List.cons_append, List.cons_append] at e4
      obtain ⟨e5, e6⟩ := lines_det h3 h3' e4
      have e7 := List.append_cancel_left e6
      rw [e1] at h1
      rw [e3] at h2
      rw [e7] at h4
      exact ⟨decNum_det h1 h1', decNum_det h2 h2', e5, decNum_det h4 h4'⟩

/-! ## The set of names -/

theorem strInsert_sorted {l : List String} {x : String} (h : l.Pairwise (· < ·)) :
    (strInsert l x).Pairwise (· < ·) := by
  induction l with
  | nil => simp [strInsert]
  | cons z l ih =>
    have h' := List.pairwise_cons.1 h
    unfold strInsert
    split
    · rename_i hx
      refine List.pairwise_cons.2 ⟨fun w hw => ?_, h⟩
      rcases List.mem_cons.1 hw with rfl | hw
      · exact hx
      · exact String.lt_trans hx (h'.1 w hw)
    · rename_i hx
      split
      · exact h
      · rename_i hne
        refine List.pairwise_cons.2 ⟨fun w hw => ?_, ih h'.2⟩
        rcases mem_strInsert.1 hw with rfl | hw
        · by_cases hlt : z < w
          · exact hlt
          · exact absurd (String.le_antisymm (String.not_lt.1 hlt) (String.not_lt.1 hx)) hne
        · exact h'.1 w hw

theorem safeFnSet_aux (names : List String) (d : List String) (hd : d.Pairwise (· < ·)) :
    (names.foldl strInsert d).Pairwise (· < ·) ∧
    ∀ x, x ∈ names.foldl strInsert d ↔ x ∈ d ∨ x ∈ names := by
  induction names generalizing d with
  | nil => exact ⟨hd, by simp⟩
  | cons y names ih =>
    obtain ⟨h1, h2⟩ := ih (strInsert d y) (strInsert_sorted hd)
    refine ⟨h1, fun x => ?_⟩
    rw [List.foldl_cons, h2, mem_strInsert, List.mem_cons]
    constructor
    · rintro ((h | h) | h)
      · exact .inr (.inl h)
      · exact .inl h
      · exact .inr (.inr h)
    · rintro (h | h | h)
      · exact .inl (.inr h)
      · exact .inl (.inl h)
      · exact .inr h

theorem lines_written {l : List String} (h : ∀ x ∈ l, x.toList ≠ [] ∧ '\n' ∉ x.toList) :
    Lines (l.flatMap fun f => f.toList ++ ['\n']) l := by
  induction l with
  | nil => exact .nil
  | cons x l ih =>
    rw [List.flatMap_cons, List.append_assoc, List.singleton_append]
    have := h x List.mem_cons_self
    exact .cons this.1 this.2 (ih fun y hy => h y (List.mem_cons_of_mem _ hy))

/-- C76, part.  If names are neither empty nor contain a line break, the file is in the format;
its names are the distinct names of the safe functions in increasing order, and its counts are
their number and the number of functions less this.  Missing: other names. -/
theorem C76_written_partial (total : Nat) (names : List String) (elapsed : Int)
    (hn : ∀ x ∈ names, x.toList ≠ [] ∧ '\n' ∉ x.toList) :
    ∃ l, StatsFormat (statsText total names elapsed) l.length ((total : Int) - l.length) l elapsed ∧
      l.Pairwise (· < ·) ∧ ∀ x, x ∈ l ↔ x ∈ names := by
  obtain ⟨h1, h2⟩ := safeFnSet_aux names [] .nil
  have h3 : ∀ x, x ∈ safeFnSet names ↔ x ∈ names := fun x => by
    have := h2 x
    simpa [safeFnSet] using this
  exact ⟨safeFnSet names, .mk (decInt_num _) (decInt_num _)
    (lines_written fun x hx => hn x ((h3 x).1 hx)) (decInt_num _), h1, h3⟩

/-- C76 is false for names with line breaks: two different sets of functions give the same
file. -/
theorem C76_refuted_names : statsText 2 ["a", "b\nc"] 0 = statsText 2 ["a\nb", "c"] 0 := by
  decide +kernel

example : StatsFormat (statsText 3 ["g", "f", "g"] 7) 2 1 ["f", "g"] 7 := by
  have e : safeFnSet ["g", "f", "g"] = ["f", "g"] := by decide +kernel
  obtain ⟨l, h1, h2, h3⟩ := C76_written_partial 3 ["g", "f", "g"] 7 (by decide +kernel)
  have : StatsFormat (statsText 3 ["g", "f", "g"] 7) _ _ _ 7 :=
    .mk (decInt_num _) (decInt_num _) (lines_written (l := safeFnSet ["g", "f", "g"])
      (by decide +kernel)) (decInt_num _)
  rw [e] at this
  exact this

/-! ## Several code objects -/

/-- The objects which are analysed. -/
def Analysed (fl : InstrFlags) (o : BObject) : Prop :=
  (fl.libs = true ∨ isSharedLibrary o.path = false) ∧
  ¬ (fl.threatModel = "trust_system" ∧ isSystemCode o.path = true) ∧ fl.shadowStack = "light"

/-- The file tells about the last object analysed only, whatever came before. -/
theorem C76_last {fl : InstrFlags} {stats : String} (hs : stats ≠ "") {an : BObject → ObjStats}
    {pre post : List BObject} {o : BObject} (ho : Analysed fl o) (hp : ∀ q ∈ post, ¬ Analysed fl q)
    (file : Option (List Char)) :
    statsFile fl stats an (pre ++ o :: post) file =
      some (statsText (an o).total (an o).safe (an o).elapsed) := by
  obtain ⟨h1, h2, h3⟩ := ho
  have key : ∀ (post : List BObject), (∀ q ∈ post, ¬ Analysed fl q) → ∀ file,
      statsFile fl stats an post file = file := by
    intro post
    induction post with
    | nil => intro _ _; rfl
    | cons q post ih =>
      intro hp file
      have hq := hp q List.mem_cons_self
      have ih := ih fun x hx => hp x (List.mem_cons_of_mem _ hx)
      unfold statsFile at ih ⊢
      rw [List.foldl_cons, ih]
      split
      · rfl
      · rename_i hl
        split
        · rfl
        · rename_i ht
          refine absurd ⟨?_, ht, h3⟩ hq
          cases hl1 : fl.libs
          · cases hl2 : isSharedLibrary q.path
            · exact .inr rfl
            · rw [hl1, hl2] at hl; exact absurd rfl hl
          · exact .inl rfl
  have e : statsFile fl stats an (pre ++ o :: post) file =
      statsFile fl stats an post (statsFile fl stats an [o] (statsFile fl stats an pre file)) := by
    simp [statsFile, List.foldl_append]
  rw [e, key post hp]
  unfold statsFile
  rw [List.foldl_cons, List.foldl_nil, if_neg, if_neg h2, if_pos h3, if_pos hs]
  rcases h1 with h1 | h1 <;> simp [h1]

/-- C76 is false for several objects: the safe functions of the program are not in the file if a
library is analysed after it. -/
theorem C76_refuted_objects :
    let prog : BObject := { path := "/bin/prog", modules := [], code := tinyCode, analyses := fun _ => none }
    let lib : BObject := { prog with path := "/lib/libx.so" }
    let an : BObject → ObjStats := fun o =>
      if o.path = "/bin/prog" then ⟨1, ["f"], 0⟩ else ⟨0, [], 0⟩
    statsFile { libs := true } "s" an [prog, lib] none =
      some (decInt 0 ++ ',' :: decInt 0 ++ '\n' :: '\n' ::
        ([] ++ "\nelapsed (seconds) : ".toList ++ decInt 0)) := by
  intro prog lib an
  have := C76_last (fl := { libs := true }) (stats := "s") (by decide) (an := an)
    (pre := [prog]) (o := lib) (post := []) ⟨.inl rfl, by decide, by decide⟩ nofun none
  exact this.trans (by decide +kernel)

/-! ## The result of a pass -/

/-- What a pass records of the number of safe functions: it up to multiples of 256. -/
theorem C76_result (a b : List Bool) :
    passDatum a = passDatum b ↔ (a.countP id) % 256 = (b.countP id) % 256 := by
  simp [passDatum]

/-- C76 is false for the results of passes: 256 safe functions are recorded as none, and 49 as
the text `1`. -/
theorem C76_refuted_result : passDatum (List.replicate 256 true) = passDatum [] ∧
    passDatum (List.replicate 49 true) = ['1'.toNat] := by
  decide +kernel

/-! ## The file and the instrumentation -/

/-- C76, part.  With one object, no skip list and safe function elision, the name of a function
which is left alone is in the file. -/
theorem C76_listed_partial {fl : InstrFlags} {o : BObject} {f : BFunc} {st st' : Stats} {p : Plan}
    {an : ObjStats} (hl : fl.shadowStack = "light")
    (h : instrumentFunction fl [] o.code o.analyses f st = some (p, st'))
    (hk : p.kind = .skipped)
    (hsafe : ∀ s ws, o.analyses f.base = some (s, ws) → s.safe = true → f.name ∈ an.safe)
    (hn : ∀ x ∈ an.safe, x.toList ≠ [] ∧ '\n' ∉ x.toList) :
    ∃ n m l e, StatsFormat (statsText an.total an.safe an.elapsed) n m l e ∧ f.name ∈ l := by
  obtain ⟨l, h1, _, h3⟩ := C76_written_partial an.total an.safe an.elapsed hn
  refine ⟨_, _, l, _, h1, (h3 _).2 ?_⟩
  obtain ⟨_, ⟨s, h4, h5⟩ | h4⟩ := (((C40_strategy h).1 hl).1.1 hk)
  · unfold summaryOf at h4
    rw [if_pos hl] at h4
    cases ha : o.analyses f.base with
    | none => rw [ha] at h4; cases h4
    | some x =>
      rw [ha] at h4
      cases h4
      exact hsafe x.1 x.2 ha h5
  · cases h4

end Verif
