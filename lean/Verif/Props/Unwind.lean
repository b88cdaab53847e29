import Verif.Unwind
import Verif.Props.Whole

/-!
# C86: whole programs with exceptions
-/

namespace Verif

/-! ## The invariant -/

/-- The return addresses of the activations between push and check stand on the shadow stack in
their order, among entries of activations which have been abandoned. -/
def amid (m : ProgSem) (gone : W → Prop) : List Act → List W → Prop
  | [], l => ∀ v ∈ l, gone v
  | a :: as, l => (IsOpen a.done ∧ ¬ m.inReg a.func ∧
      ∃ j l', l = j ++ a.ra :: l' ∧ (∀ v ∈ j, gone v) ∧ amid m gone as l') ∨
      (¬ (IsOpen a.done ∧ ¬ m.inReg a.func) ∧ amid m gone as l)

theorem amid_mono {m : ProgSem} {gone gone' : W → Prop} (hsub : ∀ v, gone v → gone' v) {acts : List Act}
    {l : List W} (h : amid m gone acts l) : amid m gone' acts l := by
  induction acts generalizing l with
  | nil => exact fun v hv => hsub v (h v hv)
  | cons a as ih =>
    rcases h with ⟨h1, h2, k, l', rfl, hk, h⟩ | ⟨h1, h⟩
    · exact .inl ⟨h1, h2, k, l', rfl, fun v hv => hsub v (hk v hv), ih h⟩
    · exact .inr ⟨h1, ih h⟩

theorem amid_prepend {m : ProgSem} {gone : W → Prop} {acts : List Act} {l : List W} {j : List W}
    (hj : ∀ v ∈ j, gone v) (h : amid m gone acts l) : amid m gone acts (j ++ l) := by
  induction acts generalizing l with
  | nil => exact fun v hv => (List.mem_append.1 hv).elim (hj v) (h v)
  | cons a as ih =>
    rcases h with ⟨h1, h2, k, l', rfl, hk, h⟩ | ⟨h1, h⟩
    · exact .inl ⟨h1, h2, j ++ k, l', by simp, fun v hv => (List.mem_append.1 hv).elim (hj v) (hk v), h⟩
    · exact .inr ⟨h1, ih h⟩

/-- An activation without an entry, or one which is abandoned. -/
theorem amid_tail {m : ProgSem} {gone : W → Prop} {a : Act} {as : List Act} {l : List W}
    (h : amid m gone (a :: as) l) (hg : IsOpen a.done → ¬ m.inReg a.func → gone a.ra) : amid m gone as l := by
  rcases h with ⟨h1, h2, j, l', rfl, hj, h⟩ | ⟨_, h⟩
  · have := amid_prepend (j := j ++ [a.ra]) (fun v hv => ?_) h
    · rwa [List.append_assoc] at this
    · rcases List.mem_append.1 hv with hv | hv
      · exact hj v hv
      · exact List.mem_singleton.1 hv ▸ hg h1 h2
  · exact h

theorem amid_congr {m : ProgSem} {gone : W → Prop} {a a' : Act} {as : List Act} {l : List W}
    (h1 : IsOpen a'.done ↔ IsOpen a.done) (h2 : a'.func = a.func) (h3 : a'.ra = a.ra) :
    amid m gone (a' :: as) l ↔ amid m gone (a :: as) l := by
  simp only [amid, h1, h2, h3]

theorem amid_open {m : ProgSem} {gone : W → Prop} : ∀ {acts : List Act} {l : List W}, amid m gone acts l →
    ∀ x ∈ acts, IsOpen x.done → ¬ m.inReg x.func → x.ra ∈ l := by
  intro acts
  induction acts with
  | nil => intro l _ x hx; cases hx
  | cons a as ih =>
    intro l h x hx ho hr
    rcases List.mem_cons.mp hx with rfl | hx
    · rcases h with ⟨_, _, j, l', rfl, _⟩ | ⟨hn, _⟩
      · simp
      · exact absurd ⟨ho, hr⟩ hn
    · rcases h with ⟨_, _, j, l', rfl, _, h⟩ | ⟨_, h⟩
      · exact List.mem_append_right _ (List.mem_cons_of_mem _ (ih h x hx ho hr))
      · exact ih h x hx ho hr

/-- Every entry is that of an activation or of one which has been abandoned. -/
theorem amid_known {m : ProgSem} {gone : W → Prop} : ∀ {acts : List Act} {l : List W}, amid m gone acts l →
    ∀ v ∈ l, (∃ x ∈ acts, m.stacked x.func x.done ∧ v = x.ra) ∨ gone v := by
  intro acts
  induction acts with
  | nil => exact fun h v hv => .inr (h v hv)
  | cons a as ih =>
    intro l h v hv
    rcases h with ⟨ho, hr, j, l', rfl, hj, h⟩ | ⟨_, h⟩
    · rcases List.mem_append.1 hv with hv | hv
      · exact .inr (hj v hv)
      · rcases List.mem_cons.1 hv with rfl | hv
        · exact .inl ⟨a, by simp, ⟨ho.1, ho.2, hr⟩, rfl⟩
        · exact (ih h v hv).imp_left fun ⟨x, h1, h2⟩ => ⟨x, List.mem_cons_of_mem _ h1, h2⟩
    · exact (ih h v hv).imp_left fun ⟨x, h1, h2⟩ => ⟨x, List.mem_cons_of_mem _ h1, h2⟩

theorem amid_over {m : ProgSem} {gone : W → Prop} {as bs : List Act} (h : Overwritten as bs) : ∀ {l : List W},
    amid m gone as l → amid m gone bs l := by
  induction h with
  | nil => exact fun h => h
  | @cons a as bs v _ ih =>
    intro l h
    rcases h with ⟨h1, h2, j, l', rfl, hj, h⟩ | ⟨h1, h⟩
    · exact .inl ⟨h1, h2, j, l', rfl, hj, ih h⟩
    · exact .inr ⟨h1, ih h⟩

/-- The invariant.  `gone v`: an activation with the return address `v` has been abandoned. -/
structure UInv (m : ProgSem) (writes : Func → Prop) (gone : W → Prop) (acts : List Act) (l : List W) :
    Prop where
  ok : ∀ a ∈ acts, a.Ok m
  linked : Linked writes m acts
  shadow : amid m gone acts l

section
variable {m : ProgSem} {writes : Func → Prop} {gone : W → Prop}

/-- More may be gone. -/
theorem UInv.mono {acts : List Act} {l : List W} (hi : UInv m writes gone acts l) {gone' : W → Prop}
    (h : ∀ v, gone v → gone' v) : UInv m writes gone' acts l :=
  ⟨hi.ok, hi.linked, amid_mono h hi.shadow⟩

theorem UInv.danger_open (hs : Sound m writes) {a : Act} {as : List Act} {l : List W}
    (hi : UInv m writes gone (a :: as) l) (hd : m.danger a.func a.done) :
    ∀ x ∈ a :: as, ¬ m.stays x.func → IsOpen x.done := by
  obtain ⟨h1, h2⟩ := hs.danger _ _ (hi.ok a (by simp)).trace hd
  intro x hx
  rcases List.mem_cons.mp hx with rfl | hx
  · exact h2
  · exact (all_open hi.linked h1 x hx).1

theorem linked_drop {up : List Act} {a : Act} {as : List Act} (h : Linked writes m (up ++ a :: as)) :
    Linked writes m (a :: as) := by
  induction up with
  | nil => exact h
  | cons u up ih => exact ih (linked_tail h)

theorem amid_drop {up : List Act} {a : Act} {as : List Act} {l : List W}
    (h : amid m gone (up ++ a :: as) l) (hg : ∀ x ∈ up, IsOpen x.done → ¬ m.inReg x.func → gone x.ra) :
    amid m gone (a :: as) l := by
  induction up with
  | nil => exact h
  | cons u up ih => exact ih (amid_tail h (hg u (by simp))) fun x hx => hg x (List.mem_cons_of_mem _ hx)

/-- Activations are abandoned. -/
theorem UInv.drop {up : List Act} {a : Act} {as : List Act} {l : List W}
    (hi : UInv m writes gone (up ++ a :: as) l)
    (hg : ∀ x ∈ up, IsOpen x.done → ¬ m.inReg x.func → gone x.ra) : UInv m writes gone (a :: as) l :=
  ⟨fun x hx => hi.ok x (List.mem_append_right _ hx), linked_drop hi.linked, amid_drop hi.shadow hg⟩

/-- A value which the scan accepts stands on the shadow stack or is zero. -/
theorem scan_mem {v : W} {l : List W} {n : Nat} (h : scan v l = some n) : v = 0 ∨ v ∈ l := by
  obtain ⟨h1, _, h3, h4⟩ := scan_some h
  rcases Nat.lt_or_eq_of_le h1 with h | h
  · exact .inr (by rw [← h3 h]; exact List.getElem_mem _)
  · exact .inl (h4 h)

/-- The scan does not go below an entry with the value. -/
theorem scan_above {v : W} {j l' : List W} {n : Nat} (h : scan v (j ++ v :: l') = some n) :
    n ≤ j.length := by
  refine Nat.le_of_not_lt fun hlt => ?_
  obtain ⟨_, h2, _⟩ := scan_some h
  have := (h2 j.length hlt (by simp)).1
  simp at this

/-- An entry without anything like a guard above it is found. -/
theorem scan_finds {v : W} {l : List W} (h : v ∈ l) (hg : ∀ x ∈ l, ¬ GuardLike x) :
    scan v l ≠ none := by
  induction l with
  | nil => cases h
  | cons x l ih =>
    rw [scan]
    split
    · simp
    · rename_i hne
      rw [if_neg (hg x (by simp))]
      have := ih ((List.mem_cons.mp h).resolve_left fun e => hne e.symm) fun y hy => hg y (by simp [hy])
      simpa using this

theorem over_length {as bs : List Act} (h : Overwritten as bs) : bs.length = as.length := by
  induction h with
  | nil => rfl
  | cons _ _ ih => simp [ih]

/-- Steps without exceptions which go on preserve the invariant. -/
theorem UInv.pstep (hs : Sound m writes) {acts : List Act} {l : List W}
    (hi : UInv m writes gone acts l) {q : Proc} (h : PStep m (.run acts l) q) :
    match q with
    | .run acts' l' => UInv m writes gone acts' l'
    | .killed => True
    | .diverted v => v = 0 ∨ (∃ x ∈ acts, m.stacked x.func x.done ∧ v = x.ra) ∨ gone v
    | .hijacked _ => False := by
  cases h with
  | @push a as _ ht hr =>
    have ha := hi.ok a (by simp)
    obtain ⟨p1, p2, p3⟩ := hs.push _ _ ht
    have hno : ¬ IsOpen a.done := fun h => p1 h.1
    have hslot : a.slot = a.ra := Classical.byContradiction fun h => hno (ha.slot h p3)
    have hopen : IsOpen (a.done ++ [.push]) := ⟨by simp, by simp [p2]⟩
    refine ⟨?_, linked_head (a := a) (fun h => h) hi.linked,
      .inl ⟨hopen, hr, [], l, by simp [hslot], nofun, amid_tail hi.shadow fun h => absurd h hno⟩⟩
    intro x hx
    rcases List.mem_cons.mp hx with rfl | hx
    · exact ⟨.inr ht, fun h => absurd hslot h, fun h => absurd h hr⟩
    · exact hi.ok x (by simp [hx])
  | @save a as _ ht hr =>
    have ha := hi.ok a (by simp)
    obtain ⟨p1, p2, p3⟩ := hs.push _ _ ht
    have hno : ¬ IsOpen a.done := fun h => p1 h.1
    have hslot : a.slot = a.ra := Classical.byContradiction fun h => hno (ha.slot h p3)
    refine ⟨?_, linked_head (a := a) (fun h => h) hi.linked,
      .inr ⟨fun h => h.2 hr, amid_tail hi.shadow fun _ h => absurd hr h⟩⟩
    intro x hx
    rcases List.mem_cons.mp hx with rfl | hx
    · exact ⟨.inr ht, fun h => absurd hslot h, fun _ _ => by simp [hslot]⟩
    · exact hi.ok x (by simp [hx])
  | @block a as _ b ht =>
    have ha := hi.ok a (by simp)
    refine ⟨?_, linked_head (a := a) (fun h => h) hi.linked,
      (amid_congr (a := a) (a' := { a with done := a.done ++ [.block b] }) isOpen_block rfl rfl).mpr
        hi.shadow⟩
    intro x hx
    rcases List.mem_cons.mp hx with rfl | hx
    · exact ⟨.inr ht, fun h hs => isOpen_block.mpr (ha.slot h hs),
        fun hr ho => ha.reg hr (isOpen_block.mp ho)⟩
    · exact hi.ok x (by simp [hx])
  | @attack a as as' _ hd ho =>
    exact ⟨over_ok ho fun x hx => ⟨hi.ok x hx, hi.danger_open hs hd x hx⟩,
      linked_over ho hi.linked, amid_over ho hi.shadow⟩
  | @call a as _ g ra hc =>
    have ha := hi.ok a (by simp)
    refine ⟨?_, ⟨fun hw => hs.calls _ _ _ ha.trace hc hw, hs.inReg _ _ _ hc, hi.linked⟩,
      .inr ⟨fun h => (by cases h.1.1), hi.shadow⟩⟩
    intro x hx
    rcases List.mem_cons.mp hx with rfl | hx
    · exact ⟨.inl rfl, fun h => absurd rfl h, fun _ h => by cases h.1⟩
    · exact hi.ok x hx
  | @check a as _ n ht hr hsc he =>
    have ha := hi.ok a (by simp)
    have ho := hs.check _ _ ht
    refine ⟨?_, linked_head (a := a) (fun h => h) hi.linked, .inr ⟨fun h => h.1.2 (by simp), ?_⟩⟩
    · intro x hx
      rcases List.mem_cons.mp hx with rfl | hx
      · exact ⟨.inr ht, fun h => absurd he h, fun h => absurd h hr⟩
      · exact hi.ok x (by simp [hx])
    · rcases hi.shadow with ⟨_, _, j, l', rfl, hj, h⟩ | ⟨h, _⟩
      · rw [he] at hsc
        have hn := scan_above hsc
        rw [List.drop_append]
        refine amid_prepend (fun v hv => hj v (List.mem_of_mem_drop hv)) ?_
        rcases Nat.lt_or_eq_of_le hn with hlt | heq
        · -- an older entry with the same value has been found
          rw [show n + 1 - j.length = 0 by omega]
          refine amid_prepend (j := [a.ra]) (fun v hv => ?_) h
          obtain ⟨_, _, h3, _⟩ := scan_some hsc
          have := h3 (by simp; omega)
          rw [List.getElem_append_left hlt] at this
          rw [List.mem_singleton.1 hv, ← this]
          exact hj _ (List.getElem_mem _)
        · rw [show n + 1 - j.length = 1 by omega]
          exact h
      · exact absurd ⟨ho, hr⟩ h
  | @accept a as _ n ht hr hsc he =>
    exact (scan_mem hsc).imp id fun h => amid_known hi.shadow _ h
  | @compare a as _ ht hr hreg he =>
    refine ⟨?_, linked_head (a := a) (fun h => h) hi.linked,
      .inr ⟨fun h => h.2 hr, amid_tail hi.shadow fun _ h => absurd hr h⟩⟩
    intro x hx
    rcases List.mem_cons.mp hx with rfl | hx
    · exact ⟨.inr ht, fun h => absurd he h, fun _ h => absurd h.2 (by simp)⟩
    · exact hi.ok x (by simp [hx])
  | @equal a as _ ht hr hreg he =>
    have := (hi.ok a (by simp)).reg hr (hs.check _ _ ht)
    rw [this] at hreg
    exact absurd (Option.some.inj hreg).symm he
  | @search a as _ n ht hr hreg hsc =>
    exact (scan_mem hsc).imp id fun h => amid_known hi.shadow _ h
  | fail => trivial
  | @ret a as _ hc he =>
    exact ⟨fun x hx => hi.ok x (by simp [hx]), linked_tail hi.linked,
      amid_tail hi.shadow fun h => absurd h (hs.complete _ _ hc)⟩
  | @hijack a as _ hc hst he =>
    exact hs.complete _ _ hc ((hi.ok a (by simp)).slot he hst)
  | @tail a as _ g hc ht =>
    have ha := hi.ok a (by simp)
    have hno := hs.complete _ _ hc
    have hslot : ¬ m.stays g → a.slot = a.ra := fun hg => Classical.byContradiction fun h =>
      hno (ha.slot h fun hf => hg (hs.stays _ _ _ ht hf))
    refine ⟨?_, linked_head (hs.tails _ _ _ ht) hi.linked,
      .inr ⟨fun h => (by cases h.1.1), amid_tail hi.shadow fun h => absurd h hno⟩⟩
    intro x hx
    rcases List.mem_cons.mp hx with rfl | hx
    · exact ⟨.inl rfl, fun h hg => absurd (hslot hg) h, fun _ h => by cases h.1⟩
    · exact hi.ok x (by simp [hx])

/-- Steps which go on preserve the invariant, if `gone'` contains what was gone and the return addresses of
the activations which the step removes before their checks. -/
theorem UInv.step (hs : Sound m writes) {acts : List Act} {l : List W}
    (hi : UInv m writes gone acts l) {q : Proc} (h : UStep m (.run acts l) q) {gone' : W → Prop}
    (hsub : ∀ v, gone v → gone' v)
    (hlost : ∀ up acts' l', acts = up ++ acts' → q = .run acts' l' →
      ∀ x ∈ up, m.stacked x.func x.done → gone' x.ra) :
    match q with
    | .run acts' l' => UInv m writes gone' acts' l'
    | .killed => True
    | .diverted v => v = 0 ∨ (∃ x ∈ acts, m.stacked x.func x.done ∧ v = x.ra) ∨ gone v
    | .hijacked _ => False := by
  cases h with
  | @unwind up a as _ =>
    exact (hi.mono hsub).drop fun x hx h1 h2 => hlost up _ _ rfl rfl x hx ⟨h1.1, h1.2, h2⟩
  | step h =>
    have := hi.pstep hs h
    cases q with
    | run => exact this.mono hsub
    | killed => trivial
    | diverted => exact this
    | hijacked => exact this

/-- What is true of everything that can become of a thread. -/
theorem trail_inv (hs : Sound m writes) {f : Func} {ra : W} {p0 : Proc} {qs : List Proc}
    (h : Trail (UStep m) p0 qs) (hp : Proc.run [⟨f, [], ra, ra, none⟩] [] = p0) :
    match (motive := List Proc → Prop) qs with
    | .run acts l :: ps => UInv m writes (Lost m (.run acts l :: ps)) acts l
    | .hijacked _ :: _ => False
    | _ => True := by
  induction h with
  | start =>
    subst hp
    refine ⟨fun a ha => ?_, trivial, .inr ⟨fun h => (by cases h.1.1), nofun⟩⟩
    obtain rfl : a = _ := by simpa using ha
    exact ⟨.inl rfl, fun h => absurd rfl h, fun _ h => by cases h.1⟩
  | @step q r ps hq hst ih =>
    cases q with
    | run acts l =>
      have := UInv.step hs ih hst (gone' := Lost m (r :: .run acts l :: ps)) (fun v => .inr)
        (fun up acts' l' e1 e2 x hx h => .inl ⟨up, acts', l, l', e1 ▸ rfl, e2, x, hx, h, rfl⟩)
      cases r with
      | run => exact this
      | killed => trivial
      | diverted => trivial
      | hijacked => exact this
    | killed => cases hst; rename_i h; cases h
    | diverted => cases hst; rename_i h; cases h
    | hijacked => cases hst; rename_i h; cases h

theorem URun.trail {p q : Proc} (h : URun m p q) : ∃ ps, Trail (UStep m) p (q :: ps) := by
  induction h with
  | refl => exact ⟨[], .start⟩
  | step _ hst ih =>
    obtain ⟨ps, h⟩ := ih
    exact ⟨_, .step h hst⟩

/-- Without exceptions no activation disappears before its check. -/
theorem Sound.not_lost (hs : Sound m writes) {p : Proc} {ps : List Proc} (h : Trail (PStep m) p ps) (v : W) :
    ¬ Lost m ps v := by
  induction h with
  | start => exact id
  | @step q r ps _ hst ih =>
    rintro (⟨up, acts, l, l', rfl, rfl, x, hx, hk, rfl⟩ | h)
    · have no : ∀ {n : Nat}, up.length + n = n → False := fun e => by
        cases List.length_eq_zero_iff.1 (show up.length = 0 by omega)
        cases hx
      generalize e : up ++ acts = bs at hst
      have hlen := congrArg List.length e
      rw [List.length_append] at hlen
      cases hst with
      | attack _ ho =>
        cases ho with
        | cons _ ho => exact no (hlen.trans (by simp [over_length ho]))
      | call => simp only [List.length_cons] at hlen; omega
      | ret hc =>
        cases up with
        | nil => cases hx
        | cons u up =>
          cases up with
          | nil =>
            cases e
            cases List.mem_singleton.1 hx
            exact hs.complete _ _ hc ⟨hk.1, hk.2.1⟩
          | cons => simp at hlen; omega
      | _ => exact no hlen
    · exact ih h

/-- The conditions suffice, also with exceptions. -/
theorem Sound.uprotected (hs : Sound m writes) (f : Func) : UProtected m f where
  recorded ra a as l hr hd x hx hst := by
    obtain ⟨ps, hr⟩ := hr.trail
    have hi := trail_inv hs hr rfl
    have ho := hi.danger_open hs hd x hx hst
    by_cases hreg : m.inReg x.func
    · exact .inr ((hi.ok x hx).reg hreg ho)
    · exact .inl (amid_open hi.shadow x hx ho hreg)
  unchecked ra v hr := by
    obtain ⟨ps, hr⟩ := hr.trail
    exact trail_inv hs hr rfl
  accepted ra acts l ps v hr hst :=
    (trail_inv hs hr rfl).step hs hst (gone' := fun _ => True) (fun _ _ => trivial)
      (fun _ _ _ _ _ _ _ _ => trivial)
  quiet ra a as l hr he hg hst := by
    obtain ⟨ps, hr⟩ := hr.trail
    have hi := trail_inv hs hr rfl
    have ha := hi.ok a (by simp)
    generalize hp : Proc.run (a :: as) l = p at hst
    generalize hq : Proc.killed = q at hst
    cases hst with
    | unwind => cases hq
    | step h =>
      subst hp hq
      cases h with
      | fail ht hreg hsc =>
        have ho := hs.check _ _ ht
        by_cases hr : m.inReg a.func
        · exact hreg hr (by rw [ha.reg hr ho, he])
        · exact scan_finds (amid_open hi.shadow a (by simp) ho hr) hg (he ▸ hsc)

end

/-! ## Functions with handlers -/

/-- Facts about the code of a function with handlers, as Dyninst parses it and as BPatch shows it. -/
structure HandlersOk (co : CodeObj) (bf : BFunc) (f : Func) : Prop where
  closed : ∀ b ∈ co.blocks f, ∀ e ∈ co.targets b, Flow e → e.trg ∈ co.blocks f
  /-- a return is not left to a handler -/
  exits : ∀ b ∈ co.exitBlocks f, isNonreturningCall (co.targets b) = false → ∀ e ∈ co.targets b, ¬ Flow e
  out : ∀ b ∈ co.blocks f, ∀ e ∈ co.targets b, Flow e → e ∈ bf.cfg.out b

/-- What handlers of lowered functions must be like: exceptions come from unsafe blocks, and what follows
them neither returns nor belongs to the code which is executed without exceptions.  Such are the
handlers that run destructors and then resume the exception. -/
def CleanupOnly (co : CodeObj) (T : Sums) (f : Func) : Prop :=
  ∀ b ∈ co.blocks f, ∀ e ∈ co.targets b, Flow e → e.type = .catch → b ∈ (T f).unsafeBlocks ∧
    ∀ es c, Walk co.targets Flow e.trg es c →
      ¬ (c ∈ co.exitBlocks f ∧ isNonreturningCall (co.targets c) = false) ∧
      ∀ es', ¬ Walk co.targets Follow (co.entry f) es' c

section
variable {fl : InstrFlags} {skip : List Nat} {co : CodeObj} {info : StackInfo} {R : Func → RegFacts}
  {T : Sums} {bf : Func → BFunc} {plan : Func → Plan}

/-- The first exception of a walk. -/
theorem first_catch {targets : Blk → List Edge} {b b' : Blk} {es : List Edge}
    (hw : Walk targets Flow b es b') : Walk targets Follow b es b' ∨
    ∃ es1 c e es2, es = es1 ++ e :: es2 ∧ Walk targets Follow b es1 c ∧ e ∈ targets c ∧ Flow e ∧
      e.type = .catch ∧ Walk targets Flow e.trg es2 b' := by
  induction hw with
  | nil b => exact .inl (.nil _)
  | @cons b b' e es he hf hw ih =>
    by_cases hc : e.type = .catch
    · exact .inr ⟨[], b, e, es, rfl, .nil _, he, hf, hc, hw⟩
    · rcases ih with ih | ⟨es1, c, x, es2, rfl, h1, h2, h3, h4, h5⟩
      · exact .inl (.cons he ⟨hf.1, hf.2, hc⟩ ih)
      · exact .inr ⟨e :: es1, c, x, es2, rfl, .cons he ⟨hf.1, hf.2, hc⟩ h1, h2, h3, h4, h5⟩

theorem traceFrom_append {targets : Blk → List Edge} {ok : Edge → Prop} {d : Edge → Bool → Blk × Bool}
    (E : List Edge) (P : List (Blk × Bool)) (X : List Blk) {n n' : Blk × Bool} {es : List Edge}
    (hw : CopyWalk targets ok d n es n') (e : Edge) (es' : List Edge) :
    traceFrom d E P X n (es ++ e :: es') =
      traceFrom d E P X n es ++ edgeEv E e n'.2 ++ traceFrom d E P X (d e n'.2) es' := by
  induction hw with
  | nil n => rfl
  | cons _ _ _ ih => rw [List.cons_append, traceFrom, ih, traceFrom]; simp

theorem safeReach_walk {targets : Blk → List Edge} {stop : Blk → Bool} {b c : Blk}
    (h : SafeReach targets stop b c) : ∃ es, Walk targets Follow b es c := by
  have snoc : ∀ {b c e es}, Walk targets Follow b es c → e ∈ targets c → Follow e →
      Walk targets Follow b (es ++ [e]) e.trg := by
    intro b c e es hw he hf
    induction hw with
    | nil => exact .cons he hf (.nil _)
    | cons h1 h2 _ ih => exact .cons h1 h2 (ih he)
  induction h with
  | refl => exact ⟨[], .nil _⟩
  | step _ he hf _ ih => obtain ⟨es, hw⟩ := ih; exact ⟨_, snoc hw he hf⟩

/-- A handler is executed in the original, without pushes and checks. -/
theorem handler_trace {f : Func} {s : FuncSummary} {L : Lowered} {E : List Edge} {reach : List PNode}
    {cs : CState} (hwf : WellFormed co f) (hl : LowFacts co f s L E reach cs) (X : List Blk) {b b' : Blk}
    {es : List Edge} (hw : Walk co.targets Flow b es b')
    (hnot : ∀ es c, Walk co.targets Flow b es c → ∀ es', ¬ Walk co.targets Follow (co.entry f) es' c) :
    traceFrom L.dest E [] X (b, false) es = (visits b es).map .block := by
  induction hw with
  | nil b => simp [traceFrom, nodeEv, visits]
  | @cons b b' e es he hf hw ih =>
    have hE : e ∉ E := fun h => by
      obtain ⟨c, h1, h2, _⟩ := (hl.redirect e).mp h
      obtain ⟨es', hw'⟩ := safeReach_walk h1
      have hcb : c = b := by rw [← hwf.src c e h2, hwf.src b e he]
      exact hnot [] b (.nil _) es' (hcb ▸ hw')
    have hd : L.dest e false = (e.trg, false) := by rw [hl.dest, if_pos rfl, if_neg hE]
    rw [traceFrom, hd, ih fun es c h => hnot (e :: es) c (.cons he hf h)]
    simp [nodeEv, edgeEv, hE, visits]

/-- Lowered functions with handlers of this kind. -/
theorem lowered_handlers (hj : Judged co info T) (ha : fl.asserts = true) {f : Func} (hf : f ∈ co.funcs)
    (hok : FuncOk co f) (hh : HandlersOk co (bf f) f) (hc : CleanupOnly co T f) {L : Lowered}
    (hl : doLowering fl co f (some (T f)) = some (some L)) {es : List Edge} {b' : Blk}
    (hw : Walk co.targets Flow (co.entry f) es b') :
    RightShape co info (Wr T) f b' (L.trace (co.entry f) es) := by
  rcases first_catch hw with hw' | ⟨es1, c, x, es2, rfl, h1, h2, h3, h4, h5⟩
  · exact lowered_pre hj ha hf hok hl hw'
  have hin := walk_blocks hok.wf.closed h1 hok.wf.entry
  have hcin : c ∈ co.blocks f := by
    have := visits_last h1
    exact hin c (List.mem_of_getLast? this)
  obtain ⟨hu, hpad⟩ := hc c hcin x h2 h3 h4
  have hstop : stopAt co (T f) c = true := by simp [stopAt, hu]
  have hpre := lowered_pre (info := info) hj ha hf hok hl h1
  have hcx : ¬ (c ∈ co.exitBlocks f ∧ isNonreturningCall (co.targets c) = false) :=
    fun h => hh.exits c h.1 h.2 x h2 h3
  obtain ⟨hent, k | ⟨fs1, e, fs2, k1, k2, k3, k4⟩⟩ := low_shape hok.wf hok.exits ha hl h1
  · exfalso
    have hl1 := visits_last h1
    have hm := List.mem_of_getLast? hl1
    rcases List.mem_cons.mp hm with rfl | hm
    · exact hent hu
    · obtain ⟨y, hy, rfl⟩ := List.mem_map.mp hm
      rw [k.1 y hy] at hstop
      cases hstop
  -- everything up to the exception is as in `low_shape`, then the handler follows
  have htrace : L.trace (co.entry f) (es1 ++ x :: es2) =
      L.trace (co.entry f) es1 ++ (visits x.trg es2).map .block := by
    obtain ⟨r, reach, cs, _, _, _, hlf⟩ := low_facts ha hl
    have flow : ∀ {es n'}, CopyWalk co.targets Flow L.dest (co.entry f, false) es n' →
        L.trace (co.entry f) es =
          traceFrom L.dest r.redirect [] (L.pops.map Prod.fst) (co.entry f, false) es := by
      intro es n' hcw
      obtain ⟨t, t1, t2⟩ := coalesce_trace hok.wf hlf (L.pops.map Prod.fst) hcw (fun h => by cases h)
      have hni : (co.entry f, false) ∉ cs.inst := fun h => by
        have := hlf.coalesced.clone _ h
        cases this
      unfold Lowered.trace
      rw [hlf.edges, hlf.blocks, t1, t2]
      simp [nodeEv, hni]
    obtain ⟨c1, hw1⟩ := lift_follow hlf h1 (co.entry f, false) rfl
    obtain ⟨c2, hw2⟩ := C32_lift ha hl hw false
    have hx : ¬ Follow x := fun h => h.2.2 h4
    have hxr : x ∉ r.redirect := fun h => by
      obtain ⟨_, _, _, h, _⟩ := (hlf.redirect x).mp h
      exact hx h
    have hd : L.dest x c1 = (x.trg, false) := by
      simp [hlf.dest, hxr, hx]
    rw [flow hw2, flow (hw1.mono fun _ h => h.flow), traceFrom_append _ _ _ hw1, hd,
      handler_trace hok.wf hlf _ h5 fun es c h => (hpad es c h).2]
    simp [edgeEv, hxr]
  rw [htrace, k4, if_neg hcx, List.append_nil]
  have hpre' := hpre
  rw [RightShape, k4, if_neg hcx, List.append_nil] at hpre'
  rw [List.append_assoc]
  have hnb : ∀ b ∈ visits (co.entry f) fs1, ¬ BadBlock co info (Wr T) b := by
    intro b hb hbad
    have hmem : Ev.block b ∈ (visits (co.entry f) fs1).map Ev.block := List.mem_map.mpr ⟨b, hb, rfl⟩
    obtain ⟨t1, t2, ht⟩ := List.append_of_mem hmem
    rw [ht, List.append_assoc, List.cons_append] at hpre'
    have := (pre_bad hpre' hbad).1
    have hnp : Ev.push ∉ (visits (co.entry f) fs1).map Ev.block := by simp
    rw [ht] at hnp
    simp at this
    exact hnp (by simp [this])
  refine pre_blocks hnb ?_
  change Mid _ _ _ _ (_ ++ _)
  have := mid_blocks (bs := visits e.trg fs2 ++ visits x.trg es2) (r := []) (bad := BadBlock co info (Wr T))
    (noCall := fun b => ∀ e ∈ co.targets b, e.type ≠ .call)
    (o := lastBlk none ((visits (co.entry f) fs1).map .block)) (hpad _ _ h5).1
  rwa [List.append_nil, List.map_append] at this

/-- The conditions of `Sound.uprotected`. -/
theorem built_sound_handlers (hb : Built fl skip co info R T bf plan)
    (hcall : ∀ f ∈ co.funcs, NoCallAtCheck fl co (bf f)) (hnr : ∀ f ∈ co.funcs, CallsCovered T f)
    (htail : ∀ f ∈ co.funcs, TailsOk co T f) (hleft : ∀ f ∈ co.funcs, LeftOk skip co T bf f)
    (hh : ∀ f ∈ co.funcs, HandlersOk co (bf f) f)
    (hc : ∀ f ∈ co.funcs, ∀ L, doLowering fl co f (some (T f)) = some (some L) → CleanupOnly co T f) :
    Sound (semOn Flow co plan info (inRegOf fl T) (staysOf bf)) (Wr T) :=
  built_sound_on hb hnr htail hleft (fun f hf => (hh f hf).closed) fun f hf hs _ _ hw =>
    plan_pre_on hb hcall hf (hnr f hf) (hleft f hf) hs (hh f hf).closed (hh f hf).exits (hh f hf).out hw
      fun L hl => lowered_handlers (bf := bf) (analyse_judged hb.code hb.sums) hb.asserts hf (hb.func f hf)
        (hh f hf) (hc f hf L hl) hl hw

/-- **C86, what holds.** A program analysed and instrumented by the tool is protected under the
conditions of `C45_protected_partial` also if it throws and catches exceptions or uses `longjmp`, provided
that the handlers of lowered functions only clean up.  Missing: unwinding past return addresses which
have been overwritten, handlers of lowered functions which catch the exception, and that a check accepts
only addresses of activations which still exist; all three are false. -/
theorem C86_protected_partial (hb : Built fl skip co info R T bf plan)
    (hcall : ∀ f ∈ co.funcs, NoCallAtCheck fl co (bf f)) (hnr : ∀ f ∈ co.funcs, CallsCovered T f)
    (htail : ∀ f ∈ co.funcs, TailsOk co T f) (hleft : ∀ f ∈ co.funcs, LeftOk skip co T bf f)
    (hh : ∀ f ∈ co.funcs, HandlersOk co (bf f) f)
    (hc : ∀ f ∈ co.funcs, ∀ L, doLowering fl co f (some (T f)) = some (some L) → CleanupOnly co T f)
    (f : Func) : UProtected (semOn Flow co plan info (inRegOf fl T) (staysOf bf)) f :=
  (built_sound_handlers hb hcall hnr htail hleft hh hc).uprotected f

end

end Verif
