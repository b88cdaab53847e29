import Verif.Protector

/-!
# C77: functions with a stack protector
-/

namespace Verif

/-- A function uses the stack cookie if one of its instructions does. -/
def PFunc.Protected (f : PFunc) : Prop :=
  ∃ b, (b = f.entry ∨ b ∈ f.others) ∧ ∃ i, i ∈ b ∧ i.cookie = true

/-- The functions looked at. -/
def appFuncs (objs : List PObject) : List PFunc :=
  (objs.filter fun o => !isSharedLibrary o.path).flatMap PObject.funcs

theorem cookieAccessed_iff (b : List PInsn) :
    cookieAccessed b = true ↔ ∃ i, i ∈ b ∧ ("FS" ∈ i.reads ∨ "FS" ∈ i.writes) := by
  induction b with
  | nil => simp [cookieAccessed]
  | cons i b ih =>
    unfold cookieAccessed
    split
    · rename_i h
      simp only [true_iff]
      exact ⟨i, List.mem_cons_self, .inl (by simpa using h)⟩
    · rename_i h1
      split
      · rename_i h
        simp only [true_iff]
        exact ⟨i, List.mem_cons_self, .inr (by simpa using h)⟩
      · rename_i h2
        rw [ih]
        constructor
        · rintro ⟨j, hj, h⟩
          exact ⟨j, List.mem_cons_of_mem _ hj, h⟩
        · rintro ⟨j, hj, h⟩
          rcases List.mem_cons.1 hj with rfl | hj
          · rcases h with h | h
            · exact absurd (by simpa using h) h1
            · exact absurd (by simpa using h) h2
          · exact ⟨j, hj, h⟩

theorem discover_funcs (fs : List PFunc) (r : List String × Nat) :
    fs.foldl (fun r f => (if cookieAccessed f.entry then r.1 ++ [f.name] else r.1, r.2 + 1)) r =
      (r.1 ++ (fs.filter fun f => cookieAccessed f.entry).map PFunc.name, r.2 + fs.length) := by
  induction fs generalizing r with
  | nil => simp
  | cons f fs ih =>
    rw [List.foldl_cons, ih]
    cases h : cookieAccessed f.entry
    · simp [h]; omega
    · simp [h]; omega

theorem discover_aux (objs : List PObject) (r : List String × Nat) :
    objs.foldl (fun r o =>
      if isSharedLibrary o.path then r
      else o.funcs.foldl (fun r f =>
        (if cookieAccessed f.entry then r.1 ++ [f.name] else r.1, r.2 + 1)) r) r =
      (r.1 ++ ((appFuncs objs).filter fun f => cookieAccessed f.entry).map PFunc.name,
        r.2 + (appFuncs objs).length) := by
  induction objs generalizing r with
  | nil => simp [appFuncs]
  | cons o objs ih =>
    rw [List.foldl_cons, ih]
    cases h : isSharedLibrary o.path
    · simp only [Bool.false_eq_true, if_false]
      rw [discover_funcs]
      simp [appFuncs, h]; omega
    · simp [appFuncs, h]

/-- `k` has exactly the elements of `l` with the property, in order. -/
inductive Picks {α : Type} (P : α → Prop) : List α → List α → Prop
  | nil : Picks P [] []
  | take {x l k} : P x → Picks P l k → Picks P (x :: l) (x :: k)
  | skip {x l k} : ¬ P x → Picks P l k → Picks P (x :: l) k

theorem filter_picks {α : Type} {p : α → Bool} {P : α → Prop} {l : List α}
    (h : ∀ x, x ∈ l → (p x = true ↔ P x)) : Picks P l (l.filter p) := by
  induction l with
  | nil => exact .nil
  | cons x l ih =>
    have ih := ih fun y hy => h y (List.mem_cons_of_mem _ hy)
    have hx := h x List.mem_cons_self
    cases hp : p x
    · rw [List.filter_cons_of_neg (by rw [hp]; decide)]
      exact .skip (fun hP => by rw [hx.2 hP] at hp; cases hp) ih
    · rw [List.filter_cons_of_pos hp]
      exact .take (hx.1 hp) ih

theorem discover_eq (objs : List PObject) :
    discover objs = (((appFuncs objs).filter fun f => cookieAccessed f.entry).map PFunc.name,
      (appFuncs objs).length) := by
  unfold discover
  rw [discover_aux]; simp

/-- C77.  The list has, in order, the functions of the application of which an instruction of
the first block reads or writes the segment register, and all functions are counted. -/
theorem C77_list (objs : List PObject) :
    ∃ k : List PFunc, (discover objs).1 = k.map PFunc.name ∧
      (discover objs).2 = (appFuncs objs).length ∧
      Picks (fun f => ∃ i, i ∈ f.entry ∧ ("FS" ∈ i.reads ∨ "FS" ∈ i.writes)) (appFuncs objs) k := by
  rw [discover_eq]
  exact ⟨_, rfl, rfl, filter_picks fun f _ => cookieAccessed_iff f.entry⟩

/-- Never more protected functions than functions. -/
theorem C77_ratio (objs : List PObject) : (discover objs).1.length ≤ (discover objs).2 := by
  rw [discover_eq]
  simp only [List.length_map]
  exact List.length_filter_le _ _

/-- C77, part.  If the segment register is used for the cookie only and the cookie in the first
block if at all, the list has the functions with a stack protector.  Missing: other uses of
thread-local storage, and functions which set the cookie up later. -/
theorem C77_protected_partial (objs : List PObject)
    (h1 : ∀ f, f ∈ appFuncs objs → ∀ i, i ∈ f.entry →
      (i.cookie = true ↔ "FS" ∈ i.reads ∨ "FS" ∈ i.writes))
    (h2 : ∀ f, f ∈ appFuncs objs → f.Protected → ∃ i, i ∈ f.entry ∧ i.cookie = true) :
    ∃ k : List PFunc, (discover objs).1 = k.map PFunc.name ∧
      Picks PFunc.Protected (appFuncs objs) k := by
  rw [discover_eq]
  refine ⟨_, rfl, filter_picks fun f hf => (cookieAccessed_iff f.entry).trans ?_⟩
  constructor
  · rintro ⟨i, hi, hc⟩
    exact ⟨f.entry, .inl rfl, i, hi, (h1 f hf i hi).2 hc⟩
  · intro hp
    obtain ⟨i, hi, hc⟩ := h2 f hf hp
    exact ⟨i, hi, (h1 f hf i hi).1 hc⟩

/-- `mov %fs:0x28,%rax` -/
def cookieLoad : PInsn := { reads := ["FS"], writes := ["RAX"], cookie := true }

/-- `mov %fs:0,%rax`, a thread-local variable -/
def tlsLoad : PInsn := { reads := ["FS"], writes := ["RAX"], cookie := false }

/-- C77 is false: a function that reads a thread-local variable is listed, and one which sets up
the cookie behind a branch, as shrink wrapping does, is not. -/
theorem C77_refuted :
    let f : PFunc := { name := "f", entry := [tlsLoad], others := [] }
    let g : PFunc := { name := "g", entry := [], others := [[cookieLoad]] }
    ¬ f.Protected ∧ g.Protected ∧
    discover [{ path := "/bin/prog", funcs := [f, g] }] = (["f"], 2) := by
  refine ⟨?_, ?_, by decide +kernel⟩
  · rintro ⟨b, hb | hb, i, hi, hc⟩
    · subst hb
      cases List.mem_singleton.1 hi
      cases hc
    · cases hb
  · exact ⟨[cookieLoad], .inr (by simp), cookieLoad, by simp, rfl⟩

/-- C77 is false for programs in which no function is found: the percentage is 0/0. -/
theorem C77_refuted_ratio :
    discover [{ path := "/home/me.software/prog", funcs := [{ name := "main", entry := [cookieLoad], others := [] }] }] =
      ([], 0) := by
  decide +kernel

/-- The hypotheses of `C77_protected_partial` are met by a protected function beside another. -/
example :
    let f : PFunc := { name := "f", entry := [cookieLoad], others := [] }
    let g : PFunc := { name := "g", entry := [], others := [] }
    let objs : List PObject := [{ path := "/bin/prog", funcs := [f, g] }]
    (∀ f, f ∈ appFuncs objs → ∀ i, i ∈ f.entry →
      (i.cookie = true ↔ "FS" ∈ i.reads ∨ "FS" ∈ i.writes)) ∧
    (∀ f, f ∈ appFuncs objs → f.Protected → ∃ i, i ∈ f.entry ∧ i.cookie = true) ∧
    (discover objs).1 = ["f"] := by
  intro f g objs
  have hl : isSharedLibrary "/bin/prog" = false := by decide +kernel
  have e : appFuncs objs = [f, g] := by simp [appFuncs, objs, hl]
  rw [e]
  refine ⟨?_, ?_, by decide +kernel⟩
  · intro q hq i hi
    simp only [List.mem_cons, List.not_mem_nil, or_false] at hq
    rcases hq with rfl | rfl
    · cases List.mem_singleton.1 hi
      simp [cookieLoad]
    · cases hi
  · intro q hq hp
    simp only [List.mem_cons, List.not_mem_nil, or_false] at hq
    rcases hq with rfl | rfl
    · exact ⟨cookieLoad, List.mem_cons_self, rfl⟩
    · obtain ⟨b, hb | hb, i, hi, _⟩ := hp
      · subst hb; cases hi
      · cases hb

end Verif
