import Verif.Program

/-!
# Whole programs: the invariant

What suffices for a program to be protected, for any semantics.
-/

namespace Verif

/-- Between the push and the check. -/
def IsOpen (t : List Ev) : Prop := .push ∈ t ∧ .check ∉ t

instance (t : List Ev) : Decidable (IsOpen t) := inferInstanceAs (Decidable (_ ∧ _))

/-- Sufficient conditions.  `writes f`: calling `f` may be dangerous. -/
structure Sound (m : ProgSem) (writes : Func → Prop) : Prop where
  danger : ∀ f t, t = [] ∨ m.trace f t → m.danger f t → writes f ∧ (¬ m.stays f → IsOpen t)
  calls : ∀ f t g, t = [] ∨ m.trace f t → m.calls f t g → writes g →
    writes f ∧ (¬ m.stays f → IsOpen t)
  tails : ∀ f t g, m.tails f t g → writes g → writes f
  stays : ∀ f t g, m.tails f t g → m.stays f → m.stays g
  push : ∀ f t, m.trace f (t ++ [.push]) → .push ∉ t ∧ .check ∉ t ∧ ¬ m.stays f
  check : ∀ f t, m.trace f (t ++ [.check]) → IsOpen t
  complete : ∀ f t, m.complete f t → ¬ IsOpen t
  inReg : ∀ f t g, m.calls f t g → ¬ m.inReg f

/-- The return addresses on the shadow stack: those of the activations between push and check
that do not use a register. -/
def expected (m : ProgSem) : List Act → List W → Prop
  | [], l => l = []
  | a :: as, l => (IsOpen a.done ∧ ¬ m.inReg a.func ∧ ∃ l', l = a.ra :: l' ∧ expected m as l') ∨
      (¬ (IsOpen a.done ∧ ¬ m.inReg a.func) ∧ expected m as l)

/-- One activation is in order. -/
structure Act.Ok (m : ProgSem) (a : Act) : Prop where
  trace : a.done = [] ∨ m.trace a.func a.done
  slot : a.slot ≠ a.ra → ¬ m.stays a.func → IsOpen a.done
  reg : m.inReg a.func → IsOpen a.done → a.reg = some a.ra

/-- A caller is in order with respect to its callee. -/
def Linked (writes : Func → Prop) (m : ProgSem) : List Act → Prop
  | c :: a :: as => (writes c.func → writes a.func ∧ (¬ m.stays a.func → IsOpen a.done)) ∧ ¬ m.inReg a.func ∧
      Linked writes m (a :: as)
  | _ => True

/-- The invariant. -/
structure PInv (m : ProgSem) (writes : Func → Prop) (acts : List Act) (l : List W) : Prop where
  ok : ∀ a ∈ acts, a.Ok m
  linked : Linked writes m acts
  shadow : expected m acts l

theorem isOpen_block {t : List Ev} {b : Blk} : IsOpen (t ++ [.block b]) ↔ IsOpen t := by
  simp [IsOpen]

theorem expected_congr {m : ProgSem} {a a' : Act} {as : List Act} {l : List W}
    (h1 : IsOpen a'.done ↔ IsOpen a.done) (h2 : a'.func = a.func) (h3 : a'.ra = a.ra) :
    expected m (a' :: as) l ↔ expected m (a :: as) l := by
  simp only [expected, h1, h2, h3]

theorem expected_mem {m : ProgSem} : ∀ {acts : List Act} {l : List W}, expected m acts l →
    ∀ v ∈ l, ∃ x ∈ acts, v = x.ra := by
  intro acts
  induction acts with
  | nil => intro l h v hv; rw [show l = [] from h] at hv; cases hv
  | cons a as ih =>
    intro l h v hv
    rcases h with ⟨_, _, l', rfl, h⟩ | ⟨_, h⟩
    · rcases List.mem_cons.mp hv with rfl | hv
      · exact ⟨a, by simp, rfl⟩
      · obtain ⟨x, hx, e⟩ := ih h v hv
        exact ⟨x, by simp [hx], e⟩
    · obtain ⟨x, hx, e⟩ := ih h v hv
      exact ⟨x, by simp [hx], e⟩

theorem expected_open {m : ProgSem} : ∀ {acts : List Act} {l : List W}, expected m acts l →
    ∀ x ∈ acts, IsOpen x.done → ¬ m.inReg x.func → x.ra ∈ l := by
  intro acts
  induction acts with
  | nil => intro l _ x hx; cases hx
  | cons a as ih =>
    intro l h x hx ho hr
    rcases h with ⟨_, _, l', rfl, h⟩ | ⟨hn, h⟩
    · rcases List.mem_cons.mp hx with rfl | hx
      · simp
      · exact List.mem_cons_of_mem _ (ih h x hx ho hr)
    · rcases List.mem_cons.mp hx with rfl | hx
      · exact absurd ⟨ho, hr⟩ hn
      · exact ih h x hx ho hr

theorem expected_over {m : ProgSem} {as bs : List Act} (h : Overwritten as bs) : ∀ {l : List W},
    expected m as l → expected m bs l := by
  induction h with
  | nil => exact fun h => h
  | @cons a as bs v _ ih =>
    intro l h
    rcases h with ⟨h1, h2, l', rfl, h⟩ | ⟨h1, h⟩
    · exact .inl ⟨h1, h2, l', rfl, ih h⟩
    · exact .inr ⟨h1, ih h⟩

theorem linked_head {writes : Func → Prop} {m : ProgSem} {a a' : Act} {as : List Act}
    (hf : writes a'.func → writes a.func) (h : Linked writes m (a :: as)) :
    Linked writes m (a' :: as) := by
  cases as with
  | nil => exact trivial
  | cons b bs => exact ⟨fun hw => h.1 (hf hw), h.2⟩

theorem linked_tail {writes : Func → Prop} {m : ProgSem} {a : Act} {as : List Act}
    (h : Linked writes m (a :: as)) : Linked writes m as := by
  cases as with
  | nil => exact trivial
  | cons b bs => exact h.2.2

theorem linked_over {writes : Func → Prop} {m : ProgSem} {as bs : List Act} (h : Overwritten as bs) :
    Linked writes m as → Linked writes m bs := by
  induction h with
  | nil => exact fun h => h
  | @cons a as bs v h1 ih =>
    intro h
    cases h1 with
    | nil => exact trivial
    | cons w h2 => exact ⟨h.1, h.2.1, ih h.2.2⟩

/-- If the innermost activation can be dangerous, all others which may return are between push and
check. -/
theorem all_open {writes : Func → Prop} {m : ProgSem} : ∀ {acts : List Act} {a : Act},
    Linked writes m (a :: acts) → writes a.func →
      ∀ x ∈ acts, (¬ m.stays x.func → IsOpen x.done) ∧ ¬ m.inReg x.func := by
  intro acts
  induction acts with
  | nil => intro a _ _ x hx; cases hx
  | cons b bs ih =>
    intro a h hw x hx
    obtain ⟨h1, h2, h3⟩ := h
    obtain ⟨k1, k2⟩ := h1 hw
    rcases List.mem_cons.mp hx with rfl | hx
    · exact ⟨k2, h2⟩
    · exact ih h3 k1 x hx

theorem over_ok {m : ProgSem} {as bs : List Act} (h : Overwritten as bs)
    (ho : ∀ a ∈ as, a.Ok m ∧ (¬ m.stays a.func → IsOpen a.done)) : ∀ a ∈ bs, a.Ok m := by
  induction h with
  | nil => intro a ha; cases ha
  | @cons a as bs v _ ih =>
    intro x hx
    rcases List.mem_cons.mp hx with rfl | hx
    · obtain ⟨h1, h2⟩ := ho a (by simp)
      exact ⟨h1.trace, fun _ => h2, h1.reg⟩
    · exact ih (fun y hy => ho y (by simp [hy])) x hx

section
variable {m : ProgSem} {writes : Func → Prop}

/-- Everything is recorded at dangerous moments. -/
theorem danger_open (hs : Sound m writes) {a : Act} {as : List Act} {l : List W}
    (hi : PInv m writes (a :: as) l) (hd : m.danger a.func a.done) :
    ∀ x ∈ a :: as, ¬ m.stays x.func → IsOpen x.done := by
  obtain ⟨h1, h2⟩ := hs.danger _ _ (hi.ok a (by simp)).trace hd
  intro x hx
  rcases List.mem_cons.mp hx with rfl | hx
  · exact h2
  · exact (all_open hi.linked h1 x hx).1

/-- The top of the shadow stack belongs to the innermost activation once it is recorded. -/
theorem open_top {a : Act} {as : List Act} {l : List W}
    (hi : PInv m writes (a :: as) l) (ho : IsOpen a.done) (hr : ¬ m.inReg a.func) :
    ∃ l', l = a.ra :: l' ∧ expected m as l' := by
  rcases hi.shadow with ⟨_, _, h⟩ | ⟨h, _⟩
  · exact h
  · exact absurd ⟨ho, hr⟩ h

theorem PInv.block {a : Act} {as : List Act} {l : List W}
    (hi : PInv m writes (a :: as) l) {b : Blk} (ht : m.trace a.func (a.done ++ [.block b])) :
    PInv m writes ({ a with done := a.done ++ [.block b] } :: as) l := by
  have ha := hi.ok a (by simp)
  refine ⟨?_, linked_head (a := a) (fun h => h) hi.linked,
    (expected_congr (a := a) (a' := { a with done := a.done ++ [.block b] }) isOpen_block rfl rfl).mpr
      hi.shadow⟩
  intro x hx
  rcases List.mem_cons.mp hx with rfl | hx
  · exact ⟨.inr ht, fun h hs => isOpen_block.mpr (ha.slot h hs),
      fun hr ho => ha.reg hr (isOpen_block.mp ho)⟩
  · exact hi.ok x (by simp [hx])

/-- Steps which go on preserve the invariant; the others are excused. -/
theorem PInv.step (hs : Sound m writes) {acts : List Act} {l : List W}
    (hi : PInv m writes acts l) {q : Proc} (h : PStep m (.run acts l) q) :
    match q with
    | .run acts' l' => PInv m writes acts' l'
    | .killed => True
    | .diverted v => v = 0 ∨ ∃ x ∈ acts, v = x.ra
    | .hijacked _ => False := by
  cases h with
  | @push a as _ ht hr =>
    have ha := hi.ok a (by simp)
    obtain ⟨p1, p2, p3⟩ := hs.push _ _ ht
    have hno : ¬ IsOpen a.done := fun h => p1 h.1
    have hslot : a.slot = a.ra := Classical.byContradiction fun h => hno (ha.slot h p3)
    have hopen : IsOpen (a.done ++ [.push]) := ⟨by simp, by simp [p2]⟩
    refine ⟨?_, linked_head (a := a) (fun h => h) hi.linked, .inl ⟨hopen, hr, l, by rw [hslot], ?_⟩⟩
    · intro x hx
      rcases List.mem_cons.mp hx with rfl | hx
      · exact ⟨.inr ht, fun h => absurd hslot h, fun h => absurd h hr⟩
      · exact hi.ok x (by simp [hx])
    · rcases hi.shadow with ⟨h, _⟩ | ⟨_, h⟩
      · exact absurd h hno
      · exact h
  | @save a as _ ht hr =>
    have ha := hi.ok a (by simp)
    obtain ⟨p1, p2, p3⟩ := hs.push _ _ ht
    have hno : ¬ IsOpen a.done := fun h => p1 h.1
    have hslot : a.slot = a.ra := Classical.byContradiction fun h => hno (ha.slot h p3)
    refine ⟨?_, linked_head (a := a) (fun h => h) hi.linked, .inr ⟨fun h => h.2 hr, ?_⟩⟩
    · intro x hx
      rcases List.mem_cons.mp hx with rfl | hx
      · exact ⟨.inr ht, fun h => absurd hslot h, fun _ _ => by simp [hslot]⟩
      · exact hi.ok x (by simp [hx])
    · rcases hi.shadow with ⟨h, _⟩ | ⟨_, h⟩
      · exact absurd h hno
      · exact h
  | block ht => exact hi.block ht
  | @attack a as as' _ hd ho =>
    exact ⟨over_ok ho fun x hx => ⟨hi.ok x hx, danger_open hs hi hd x hx⟩,
      linked_over ho hi.linked, expected_over ho hi.shadow⟩
  | @call a as _ g ra hc =>
    have ha := hi.ok a (by simp)
    refine ⟨?_, ⟨fun hw => hs.calls _ _ _ ha.trace hc hw, hs.inReg _ _ _ hc, hi.linked⟩,
      .inr ⟨fun h => (by cases h.1.1), hi.shadow⟩⟩
    intro x hx
    rcases List.mem_cons.mp hx with rfl | hx
    · exact ⟨.inl rfl, fun h => absurd rfl h, fun _ h => by cases h.1⟩
    · exact hi.ok x hx
  | @check a as _ n ht hr hsc he =>
    have ha := hi.ok a (by simp)
    have ho := hs.check _ _ ht
    obtain ⟨l', rfl, hl⟩ := open_top hi ho hr
    have hn : n = 0 := by rw [he, scan, if_pos rfl] at hsc; cases hsc; rfl
    subst hn
    refine ⟨?_, linked_head (a := a) (fun h => h) hi.linked, .inr ⟨fun h => h.1.2 (by simp), hl⟩⟩
    intro x hx
    rcases List.mem_cons.mp hx with rfl | hx
    · exact ⟨.inr ht, fun h => absurd he h, fun h => absurd h hr⟩
    · exact hi.ok x (by simp [hx])
  | @accept a as _ n ht hr hsc he =>
    obtain ⟨h1, _, h3, h4⟩ := scan_some hsc
    rcases Nat.lt_or_eq_of_le h1 with h | h
    · right
      have := h3 h
      exact expected_mem hi.shadow _ (by rw [← this]; exact List.getElem_mem _)
    · exact .inl (h4 h)
  | @compare a as _ ht hr hreg he =>
    have ha := hi.ok a (by simp)
    refine ⟨?_, linked_head (a := a) (fun h => h) hi.linked, .inr ⟨fun h => h.2 hr, ?_⟩⟩
    · intro x hx
      rcases List.mem_cons.mp hx with rfl | hx
      · exact ⟨.inr ht, fun h => absurd he h, fun _ h => absurd h.2 (by simp)⟩
      · exact hi.ok x (by simp [hx])
    · rcases hi.shadow with ⟨_, h, _⟩ | ⟨_, h⟩
      · exact absurd hr h
      · exact h
  | @equal a as _ ht hr hreg he =>
    have ha := hi.ok a (by simp)
    have := ha.reg hr (hs.check _ _ ht)
    rw [this] at hreg
    exact absurd (Option.some.inj hreg).symm he
  | @search a as _ n ht hr hreg hsc =>
    obtain ⟨h1, _, h3, h4⟩ := scan_some hsc
    rcases Nat.lt_or_eq_of_le h1 with h | h
    · right
      have := h3 h
      exact expected_mem hi.shadow _ (by rw [← this]; exact List.getElem_mem _)
    · exact .inl (h4 h)
  | fail => trivial
  | @ret a as _ hc he =>
    refine ⟨fun x hx => hi.ok x (by simp [hx]), linked_tail hi.linked, ?_⟩
    rcases hi.shadow with ⟨h, _⟩ | ⟨_, h⟩
    · exact absurd h (hs.complete _ _ hc)
    · exact h
  | @hijack a as _ hc hst he =>
    exact hs.complete _ _ hc ((hi.ok a (by simp)).slot he hst)
  | @tail a as _ g hc ht =>
    have ha := hi.ok a (by simp)
    have hno := hs.complete _ _ hc
    have hslot : ¬ m.stays g → a.slot = a.ra := fun hg => Classical.byContradiction fun h =>
      hno (ha.slot h fun hf => hg (hs.stays _ _ _ ht hf))
    refine ⟨?_, linked_head (hs.tails _ _ _ ht) hi.linked,
      .inr ⟨fun h => (by cases h.1.1), ?_⟩⟩
    · intro x hx
      rcases List.mem_cons.mp hx with rfl | hx
      · exact ⟨.inl rfl, fun h hg => absurd (hslot hg) h, fun _ h => by cases h.1⟩
      · exact hi.ok x (by simp [hx])
    · rcases hi.shadow with ⟨h, _⟩ | ⟨_, h⟩
      · exact absurd h hno
      · exact h

theorem pinv_start (f : Func) (ra : W) : PInv m writes [⟨f, [], ra, ra, none⟩] [] where
  ok a ha := by
    obtain rfl : a = _ := by simpa using ha
    exact ⟨.inl rfl, fun h => absurd rfl h, fun _ h => by cases h.1⟩
  linked := trivial
  shadow := .inr ⟨fun h => (by cases h.1.1), rfl⟩

/-- What is true of everything that can become of a thread. -/
def Proc.Fine (m : ProgSem) (writes : Func → Prop) : Proc → Prop
  | .run acts l => PInv m writes acts l
  | .hijacked _ => False
  | _ => True

theorem prun_inv (hs : Sound m writes) {f : Func} {ra : W} {p : Proc}
    (h : PRun m (.run [⟨f, [], ra, ra, none⟩] []) p) : p.Fine m writes := by
  generalize hp : Proc.run [⟨f, [], ra, ra, none⟩] [] = p0 at h
  induction h with
  | refl => subst hp; exact pinv_start f ra
  | @step q r _ hst ih =>
    cases q with
    | run acts l =>
      have := PInv.step hs ih hst
      cases r with
      | run => exact this
      | killed => trivial
      | diverted => trivial
      | hijacked => exact this
    | killed => cases hst
    | diverted => cases hst
    | hijacked => cases hst

/-- The conditions suffice. -/
theorem Sound.protected (hs : Sound m writes) (f : Func) : Protected m f where
  recorded ra a as l hr hd x hx hst := by
    have hi : PInv m writes (a :: as) l := prun_inv hs hr
    have ho := danger_open hs hi hd x hx hst
    by_cases hreg : m.inReg x.func
    · exact .inr ((hi.ok x hx).reg hreg ho)
    · exact .inl (expected_open hi.shadow x hx ho hreg)
  unchecked ra v hr := prun_inv hs hr
  accepted ra acts l v hr hst := PInv.step hs (prun_inv hs hr) hst

end

end Verif
