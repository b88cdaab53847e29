import Verif.Props.Signals

/-! Threads with signal handlers (C99). -/

namespace Verif

/-! ## Register frames -/

/-- What is known of the signals during a snippet of a register frame. -/
structure RegSigs (sigc : Code → State → State → Prop) (K own : W → Prop) (g : W) (honest scratch : Prop) :
    Prop where
  same : ∀ {k a b}, sigc k a b → Same K a b
  adds : ∀ {k a b}, sigc k a b → Adds g own a b
  real : ∀ {k a b l}, honest → sigc k a b → Recorded g l a → KeepsReal g a.mem b.mem
  /-- the word in which the frame register is saved is left alone -/
  word : ∀ {k a b}, scratch → sigc k a b → b.mem.read64 (g + BitVec.ofNat 64 8) = a.mem.read64 (g + BitVec.ofNat 64 8)

theorem Recorded.scratch {g v : W} {l : List W} {t : State} (h : Recorded g l t) :
    Recorded g l { t with mem := t.mem.write64 (g + BitVec.ofNat 64 8) v } := by
  have hr := h.room
  refine recorded_of h.gs ?_ (h.slots.keep hr fun a h1 h2 =>
    read_write_slot g v t.mem (by omega) (by decide) (Or.inr (by omega))) hr
  have := read_write_slot g v t.mem (a := 0) (b := 8) (by decide) (by decide) (Or.inl (by decide))
  rw [gs_zero] at this
  exact this.trans h.ptr

theorem KeepsReal.scratch (g v : W) (m : Mem) : KeepsReal g m (m.write64 (g + BitVec.ofNat 64 8) v) :=
  fun n hn hx => by
    rw [slotAt, read_write_slot _ _ _ (by omega) (by decide) (Or.inr (by omega))]; exact hx

/-- Only the region and what `K` does not contain may have changed. -/
structure Idle (K own : W → Prop) (g : W) (l : List W) (s t : State) : Prop where
  regs : t.regs = s.regs
  flags : t.flags = s.flags
  mem : ∀ x, K x → t.mem x = s.mem x
  holds : ∃ T, (∀ v ∈ T, own v) ∧ Recorded g (T ++ l) t

theorem Idle.same {K own : W → Prop} {g : W} {l : List W} {s t t' : State} (h : Idle K own g l s t)
    (hs : Same K t t') (ha : Adds g own t t') : Idle K own g l s t' :=
  ⟨hs.regs.trans h.regs, hs.flags.trans h.flags, fun x hx => (hs.keeps x hx).trans (h.mem x hx),
    Recorded.same ha h.holds⟩

/-- An interrupted register push. -/
theorem IsRegPush.interrupted {code : Code} {reg : Reg} {d : Int} (hc : IsRegPush code reg d) {g : W}
    {l : List W} {s : State} (h : Recorded g l s) (ha : Sep (s.retAddr d) 8 g regionSize) {own : W → Prop}
    {honest scratch : Prop} {sigc : Code → State → State → Prop} {fits : Code → State → Prop}
    (H : RegSigs sigc (Relies (s.retAddr d) (s.regs .rsp) 0) own g honest scratch) {k : Code} {t : State}
    (hr : Interrupted sigc fits code code s k t) :
    (∀ k', k ≠ .illegal :: k') ∧
    (k = [] → t.regs reg = s.mem.read64 (s.retAddr d) ∧ (∀ r, r ≠ reg → t.regs r = s.regs r) ∧
      t.flags = s.flags ∧ (∃ T, (∀ v ∈ T, own v) ∧ Recorded g (T ++ l) t) ∧
      (scratch → t.mem.read64 (g + BitVec.ofNat 64 8) = s.regs reg)) ∧
    (honest → KeepsReal g s.mem t.mem) ∧ (∃ T, (∀ v ∈ T, own v) ∧ Recorded g (T ++ l) t) ∧
    RestKept sigc (fun _ => False) g s.mem t.mem := by
  obtain ⟨fl, sm, hf, hrc, hcode⟩ := hc
  have ecode : code = [.storeGs 8 reg, .load reg .rsp d] := by
    simp [jitRegisterPush, hf.notEmpty, hf.notSave, hrc.get] at hcode
    exact hcode.symm
  subst ecode
  clear hcode hf
  generalize hw : ([.storeGs 8 reg, .load reg .rsp d] : Code) = w at hr
  let Inv : Code → State → Prop := fun k t =>
    (k = [.storeGs 8 reg, .load reg .rsp d] ∧ Idle (Relies (s.retAddr d) (s.regs .rsp) 0) own g l s t) ∨
    (k = [.load reg .rsp d] ∧ Idle (Relies (s.retAddr d) (s.regs .rsp) 0) own g l s t ∧
      (scratch → t.mem.read64 (g + BitVec.ofNat 64 8) = s.regs reg)) ∨
    (k = [] ∧ t.regs reg = s.mem.read64 (s.retAddr d) ∧ (∀ r, r ≠ reg → t.regs r = s.regs r) ∧
      t.flags = s.flags ∧ (∃ T, (∀ v ∈ T, own v) ∧ Recorded g (T ++ l) t) ∧
      (scratch → t.mem.read64 (g + BitVec.ofNat 64 8) = s.regs reg))
  have key : Inv k t ∧ (honest → KeepsReal g s.mem t.mem) ∧
      RestKept sigc (fun _ => False) g s.mem t.mem := by
    subst hw
    induction hr with
    | refl => exact ⟨Or.inl ⟨rfl, ⟨rfl, rfl, fun _ _ => rfl, [], by simp, h⟩⟩, fun _ => .refl _ _, .refl⟩
    | @instr k1 k2 a b _ _ hg ih =>
      obtain ⟨i1, i2, i3⟩ := ih
      rcases i1 with ⟨rfl, hi⟩ | ⟨rfl, hi, hw⟩ | ⟨rfl, _⟩
      · cases hg with
        | goto e _ => simp [exec] at e
        | next e =>
          simp only [exec, Step.next.injEq] at e
          subst e
          obtain ⟨T, hT, hrec⟩ := hi.holds
          have e1 : a.gsa 8 = g + BitVec.ofNat 64 8 := by rw [State.gsa, hrec.gs]; rfl
          rw [e1]
          refine ⟨Or.inr (Or.inl ⟨rfl, ⟨hi.regs, hi.flags, fun x hx => ?_, T, hT, hrec.scratch⟩, ?_⟩),
            fun hh => (i2 hh).trans (.scratch _ _ _), i3.go (.write (by decide))⟩
          · refine (write64_outRange _ _ _ _ fun hr => ?_).trans (hi.mem x hx)
            rcases hx with hx | hx
            · exact sep_not_inRange ha hx (slot_inRange (by decide) hr)
            · exact absurd hx (Nat.not_lt_zero _)
          · intro _; rw [hi.regs]; exact read64_write64 _ _ _
      · cases hg with
        | goto e _ => simp [exec] at e
        | next e =>
          simp only [exec, Step.next.injEq] at e
          subst e
          obtain ⟨T, hT, hrec⟩ := hi.holds
          refine ⟨Or.inr (Or.inr ⟨rfl, ?_, ?_, hi.flags, ⟨T, hT, hrec.region rfl fun _ _ => rfl⟩, hw⟩), i2, i3⟩
          · simp only [State.set, if_true, State.ea, hi.regs]
            exact read64_eq _ _ _ fun x hx => hi.mem x (Or.inl hx)
          · intro r hr; simp only [State.set, hr, if_false, hi.regs]
      · exact absurd hg (go_nil _ _)
    | signal _ hs ih =>
      obtain ⟨i1, i2, i3⟩ := ih
      have S := H.same hs
      have A := H.adds hs
      rcases i1 with ⟨rfl, hi⟩ | ⟨rfl, hi, hw⟩ | ⟨rfl, j1, j2, j3, j4, j5⟩
      · obtain ⟨T, hT, hrec⟩ := hi.holds
        exact ⟨Or.inl ⟨rfl, hi.same S A⟩, fun hh => (i2 hh).trans (H.real hh hs hrec), i3.signal hs⟩
      · obtain ⟨T, hT, hrec⟩ := hi.holds
        exact ⟨Or.inr (Or.inl ⟨rfl, hi.same S A, fun hx => (H.word hx hs).trans (hw hx)⟩),
          fun hh => (i2 hh).trans (H.real hh hs hrec), i3.signal hs⟩
      · obtain ⟨T, hT, hrec⟩ := id j4
        refine ⟨Or.inr (Or.inr ⟨rfl, by rw [S.regs]; exact j1, by rw [S.regs]; exact j2, S.flags.trans j3,
          Recorded.same A j4, fun hx => (H.word hx hs).trans (j5 hx)⟩),
          fun hh => (i2 hh).trans (H.real hh hs hrec), i3.signal hs⟩
  obtain ⟨k1, k2, k3⟩ := key
  refine ⟨?_, ?_, k2, ?_, k3⟩
  · rintro k' rfl
    rcases k1 with ⟨hk, _⟩ | ⟨hk, _⟩ | ⟨hk, _⟩ <;> simp at hk
  · rintro rfl
    rcases k1 with ⟨hk, _⟩ | ⟨hk, _⟩ | ⟨_, hk⟩
    · simp at hk
    · simp at hk
    · exact hk
  · rcases k1 with ⟨_, hi⟩ | ⟨_, hi, _⟩ | ⟨_, _, _, _, h4, _⟩
    · exact hi.holds
    · exact hi.holds
    · exact h4

theorem regPop_target {reg t1 t2 : Reg} {t : Temps} {c1 : Code} {off : Int}
    (hs : Shape c1 t off t1 t2 true true) :
    target .success (regPopCode reg t1 t2 t c1) = some [.loadGs reg 8] := by
  unfold regPopCode
  rw [target_append]
  · rfl
  · intro i hi
    simp only [List.mem_append] at hi
    rcases hi with ((hi | hi) | hi) | hi
    · simp at hi; rcases hi with rfl | rfl <;> rfl
    · rw [hs.code] at hi; exact saveCode_binds _ _ _ _ _ i hi
    · simp [validateRa] at hi
      rcases hi with rfl | rfl | rfl | rfl | rfl | rfl | rfl | rfl | rfl | rfl | rfl | rfl | rfl <;>
        rfl
    · simp [restoreCode] at hi; rcases hi with rfl | rfl <;> rfl

/-- An interrupted register pop which finds the return address intact. -/
theorem IsRegPop.interrupted {code : Code} {reg : Reg} (hc : IsRegPop code reg) {g : W}
    {l : List W} {s : State} (h : Recorded g l s) (hret : s.mem.read64 (s.regs .rsp) = s.regs reg)
    {own : W → Prop} {honest scratch : Prop} {sigc : Code → State → State → Prop}
    {fits : Code → State → Prop}
    (H : RegSigs sigc (Relies (s.regs .rsp) (s.regs .rsp) 0) own g honest scratch) {k : Code} {t : State}
    (hr : Interrupted sigc fits code code s k t) :
    (∀ k', k ≠ .illegal :: k') ∧
    (k = [] → (∀ r, r ≠ reg → t.regs r = s.regs r) ∧ (∃ T, (∀ v ∈ T, own v) ∧ Recorded g (T ++ l) t) ∧
      (scratch → t.regs reg = s.mem.read64 (g + BitVec.ofNat 64 8))) ∧
    (honest → KeepsReal g s.mem t.mem) ∧ (∃ T, (∀ v ∈ T, own v) ∧ Recorded g (T ++ l) t) ∧
    RestKept sigc (fun _ => False) g s.mem t.mem := by
  obtain ⟨fl, sm, hf, hrc, hcode⟩ := hc
  obtain ⟨t1, t2, tm, c1, he, hsh, _, _⟩ := regPop_emitted hf hrc
  rw [he] at hcode
  obtain rfl := Option.some.inj hcode
  clear hcode he
  have ht := regPop_target (reg := reg) hsh
  generalize hw : regPopCode reg t1 t2 tm c1 = w at *
  have hw' : w = .cmpMem reg .rsp 0 :: .je .success ::
      (c1 ++ (validateRa t1 t2 tm ++ (restoreCode t1 t2 true true ++ [.bind .success, .loadGs reg 8]))) := by
    rw [← hw]; simp [regPopCode]
  generalize (c1 ++ (validateRa t1 t2 tm ++ (restoreCode t1 t2 true true ++
    [.bind .success, .loadGs reg 8]))) = z at hw'
  let Inv : Code → State → Prop := fun k t =>
    ((k = w ∨ k = .je .success :: z ∧ t.zf = true ∨ k = [.loadGs reg 8]) ∧ t.regs = s.regs ∧
      (∀ x, Relies (s.regs .rsp) (s.regs .rsp) 0 x → t.mem x = s.mem x) ∧
      (∃ T, (∀ v ∈ T, own v) ∧ Recorded g (T ++ l) t) ∧
      (scratch → t.mem.read64 (g + BitVec.ofNat 64 8) = s.mem.read64 (g + BitVec.ofNat 64 8))) ∨
    (k = [] ∧ (∀ r, r ≠ reg → t.regs r = s.regs r) ∧ (∃ T, (∀ v ∈ T, own v) ∧ Recorded g (T ++ l) t) ∧
      (scratch → t.regs reg = s.mem.read64 (g + BitVec.ofNat 64 8)))
  have key : Inv k t ∧ (honest → KeepsReal g s.mem t.mem) ∧
      RestKept sigc (fun _ => False) g s.mem t.mem := by
    clear hw
    induction hr with
    | refl => exact ⟨Or.inl ⟨Or.inl rfl, rfl, fun _ _ => rfl, ⟨[], by simp, h⟩, fun _ => rfl⟩,
        fun _ => .refl _ _, .refl⟩
    | @instr k1 k2 a b _ _ hg ih =>
      obtain ⟨i1, i2, i3⟩ := ih
      rcases i1 with ⟨hk, j1, j2, ⟨T, hT, hrec⟩, j4⟩ | ⟨rfl, _⟩
      · rcases hk with rfl | ⟨rfl, hz⟩ | rfl
        · rw [hw'] at hg
          cases hg with
          | goto e _ => simp [exec] at e
          | next e =>
            simp only [exec, Step.next.injEq] at e
            subst e
            refine ⟨Or.inl ⟨Or.inr (Or.inl ⟨rfl, ?_⟩), j1, j2, ⟨T, hT, hrec.region rfl fun _ _ => rfl⟩, j4⟩, i2, i3⟩
            rw [State.zf, cmpFlags_zf, State.ea, j1]
            have : a.mem.read64 (s.regs .rsp + BitVec.ofInt 64 0) = s.regs reg := by
              rw [← hret]
              rw [show s.regs .rsp + BitVec.ofInt 64 0 = s.regs .rsp by simp]
              exact read64_eq _ _ _ fun x hx => j2 x (Or.inl hx)
            rw [this]; simp
        · cases hg with
          | next e => simp [exec, hz] at e
          | goto e ht' =>
            simp only [exec, hz, if_true, Step.goto.injEq] at e
            obtain ⟨rfl, rfl⟩ := e
            rw [ht] at ht'
            obtain rfl := Option.some.inj ht'
            exact ⟨Or.inl ⟨Or.inr (Or.inr rfl), j1, j2, ⟨T, hT, hrec⟩, j4⟩, i2, i3⟩
        · cases hg with
          | goto e _ => simp [exec] at e
          | next e =>
            simp only [exec, Step.next.injEq] at e
            subst e
            refine ⟨Or.inr ⟨rfl, ?_, ⟨T, hT, hrec.region rfl fun _ _ => rfl⟩, fun hx => ?_⟩, i2, i3⟩
            · intro r hr; simp only [State.set, hr, if_false, j1]
            · have e1 : a.gsa 8 = g + BitVec.ofNat 64 8 := by rw [State.gsa, hrec.gs]; rfl
              simp only [State.set, if_true, e1]
              exact j4 hx
      · exact absurd hg (go_nil _ _)
    | signal _ hs ih =>
      obtain ⟨i1, i2, i3⟩ := ih
      have S := H.same hs
      have A := H.adds hs
      rcases i1 with ⟨hk, j1, j2, j3, j4⟩ | ⟨rfl, j1, j2, j3⟩
      · obtain ⟨T, hT, hrec⟩ := id j3
        refine ⟨Or.inl ⟨?_, S.regs.trans j1, fun x hx => (S.keeps x hx).trans (j2 x hx),
          Recorded.same A j3, fun hx => (H.word hx hs).trans (j4 hx)⟩,
          fun hh => (i2 hh).trans (H.real hh hs hrec), i3.signal hs⟩
        rw [State.zf, S.flags]; exact hk
      · obtain ⟨T, hT, hrec⟩ := id j2
        exact ⟨Or.inr ⟨rfl, by rw [S.regs]; exact j1, Recorded.same A j2, by rw [S.regs]; exact j3⟩,
          fun hh => (i2 hh).trans (H.real hh hs hrec), i3.signal hs⟩
  obtain ⟨k1, k2, k3⟩ := key
  refine ⟨?_, ?_, k2, ?_, k3⟩
  · rintro k' rfl
    rcases k1 with ⟨hk | ⟨hk, _⟩ | hk, _⟩ | ⟨hk, _⟩
    · rw [hw'] at hk; simp at hk
    · simp at hk
    · simp at hk
    · simp at hk
  · rintro rfl
    rcases k1 with ⟨hk | ⟨hk, _⟩ | hk, _⟩ | ⟨_, hk⟩
    · rw [hw'] at hk; simp at hk
    · simp at hk
    · simp at hk
    · exact hk
  · rcases k1 with ⟨_, _, _, h3, _⟩ | ⟨_, _, h3, _⟩
    · exact h3
    · exact h3

/-! ## Threads -/

/-- The thread's own calls are recorded above `base`, in order. -/
def Conf.Over (g : W) (own : W → Prop) (base : List W) (m : Mem) : Conf → Prop
  | .run s p leaf => (∃ top, Recorded g (top ++ base) s ∧ List.Sublist p top ∧ ∀ v ∈ top, own v) ∧
      (∀ r v, leaf = some (r, v) → s.regs r = v) ∧ KeepsReal g m s.mem
  | .killed => False

/-- Handlers which are honest functions, with calls from places in `own`. -/
structure OwnOk (win : Code → Prop) (own : W → Prop) : Prop where
  window : ∀ k, BeforePointer k → win k
  real : ∀ v, own v → ¬ GuardLike v

theorem CalmSig.check {sig : Sigs} {win : Code → Prop} {own : W → Prop} {g : W}
    (H : CalmSig sig own g) (hO : OwnOk win own) (K : W → Prop) :
    CheckSigs (At (sig.back K) win g) K own g True where
  same h := H.same h.1
  adds h := H.adds h.1
  real _ h hr := H.real h.1 hr hO.real
  low h := absurd trivial h

theorem CalmSig.push {sig : Sigs} {win : Code → Prop} {own : W → Prop} {g : W}
    (H : CalmSig sig own g) (hO : OwnOk win own) (K : W → Prop) :
    PushSigs (At (sig.back K) win g) K own g True where
  same h := H.same h.1
  adds h := H.adds h.1
  real _ h hr := H.real h.1 hr hO.real
  window hk h := h.2 (hO.window _ hk)

theorem CalmSig.reg {sig : Sigs} {win : Code → Prop} {own : W → Prop} {g : W}
    (H : CalmSig sig own g) (hO : OwnOk win own) (K : W → Prop) :
    RegSigs (At (sig.back K) win g) K own g True False where
  same h := H.same h.1
  adds h := H.adds h.1
  real _ h hr := H.real h.1 hr hO.real
  word h := h.elim

/-- The entries from which an honest check still has to find its address: `post` is what will be left. -/
def Pending (own : W → Prop) (ret : W) (post L : List W) : Prop :=
  ∃ A, L = A ++ post ∧ ret ∈ A ∧ ∀ v ∈ A, own v

theorem pending_search {own : W → Prop} (hO : ∀ v, own v → ¬ GuardLike v) {ret : W} {post : List W} :
    Search (Pending own ret post) True ret where
  step := by
    rintro x L ⟨A, e, h1, h2⟩ hx
    cases A with
    | nil => simp at h1
    | cons a A =>
      simp only [List.cons_append, List.cons.injEq] at e
      obtain ⟨rfl, rfl⟩ := e
      rcases List.mem_cons.1 h1 with rfl | h1
      · exact absurd rfl hx
      · exact ⟨A, rfl, h1, fun v hv => h2 v (List.mem_cons_of_mem _ hv)⟩
  last := by
    rintro _ ⟨A, e, h1, _⟩
    cases A with
    | nil => simp at h1
    | cons a A => simp at e
  real := by
    rintro x L _ ⟨A, e, h1, h2⟩
    cases A with
    | nil => simp at h1
    | cons a A =>
      simp only [List.cons_append, List.cons.injEq] at e
      obtain ⟨rfl, rfl⟩ := e
      exact hO _ (h2 _ (List.mem_cons_self ..))

/-- What a successful interrupted check leaves. -/
theorem Found.pending {g : W} {own : W → Prop} {ret : W} {post : List W} {t : State}
    (h : Found g own (Pending own ret post) ret True t) :
    ∃ T, (∀ v ∈ T, own v) ∧ Recorded g (T ++ post) t := by
  rcases h with ⟨_, _, h⟩ | ⟨L, ⟨A, e, h1, h2⟩, T, hT, hr⟩
  · exact absurd trivial h
  · cases A with
    | nil => simp at h1
    | cons a A =>
      simp only [List.cons_append, List.cons.injEq] at e
      obtain ⟨rfl, rfl⟩ := e
      refine ⟨T ++ A, fun v hv => ?_, by rwa [List.append_assoc]⟩
      rcases List.mem_append.1 hv with hv | hv
      · exact hT v hv
      · exact h2 v (List.mem_cons_of_mem _ hv)

theorem Conf.Over.step {sig : Sigs} {win : Code → Prop} {own : W → Prop}
    {g : W} (H : CalmSig sig own g) (hO : OwnOk win own) {base : List W} {m : Mem} {c c' : Conf}
    (hc : c.Over g own base m) (hs : SigStep sig win own g c c') : c'.Over g own base m := by
  have sound : ∀ {top : List W} {s t : State} {ra : W} {p : List W} {code k : Code} {d : Int} {n : Nat}
      {free : Reg → Prop}, Recorded g (top ++ base) s → List.Sublist (ra :: p) top → (∀ v ∈ top, own v) →
      IsCheck code d n free → Apart g (s.retAddr d) n s → s.mem.read64 (s.retAddr d) = ra →
      Interrupted (At (sig.back (Relies (s.retAddr d) (s.regs .rsp) n)) win g) (fun _ _ => True) code code s k t →
      (∀ k', k ≠ .illegal :: k') ∧ (k = [] → ∃ top, Recorded g (top ++ base) t ∧ List.Sublist p top ∧
        ∀ v ∈ top, own v) ∧ KeepsReal g s.mem t.mem ∧
      ∃ top, Recorded g (top ++ base) t ∧ List.Sublist p top ∧ ∀ v ∈ top, own v := by
    intro top s t ra p code k d n free h1 h2 h3 hk ha he hr
    obtain ⟨pre, post, e, hpre⟩ := List.eq_append_cons_of_mem (h2.subset (List.mem_cons_self ..))
    subst e
    have hp := sublist_of_found h2 hpre
    have := hk.interrupted h1 ha (own := own) (Rem := Pending own (s.mem.read64 (s.retAddr d)) (post ++ base))
      (honest := True) (H.check hO _) (pending_search hO.real) (fun T hT => by
        refine ⟨T ++ pre ++ [ra], by simp, by simp [he], fun v hv => ?_⟩
        simp only [List.mem_append, List.mem_singleton] at hv
        rcases hv with (hv | hv) | rfl
        · exact hT v hv
        · exact h3 v (by simp [hv])
        · exact h3 v (by simp)) hr
    obtain ⟨c1, c2, c3, c4⟩ := this
    have left : (∃ T, (∀ v ∈ T, own v) ∧ Recorded g (T ++ (post ++ base)) t) →
        ∃ top, Recorded g (top ++ base) t ∧ List.Sublist p top ∧ ∀ v ∈ top, own v := by
      rintro ⟨T, hT, hrec⟩
      rw [← List.append_assoc] at hrec
      refine ⟨T ++ post, hrec, hp.trans (List.sublist_append_right ..), fun v hv => ?_⟩
      rcases List.mem_append.1 hv with hv | hv
      · exact hT v hv
      · exact h3 v (by simp [hv])
    refine ⟨fun k' e => c1 k' e trivial, fun e => left (c2 e).2.1.pending, c3 trivial, left ?_⟩
    obtain ⟨L, hL, T, hT, hrec⟩ := c4 trivial
    obtain ⟨A, rfl, hA⟩ : ∃ A, L = A ++ (post ++ base) ∧ ∀ v ∈ A, own v := by
      rcases hL with ⟨A, e, _, hA⟩ | ⟨x, A, e, h1, hA⟩
      · exact ⟨A, e, hA⟩
      · cases A with
        | nil => simp at h1
        | cons a A =>
          simp only [List.cons_append, List.cons.injEq] at e
          exact ⟨A, e.2, fun v hv => hA v (List.mem_cons_of_mem _ hv)⟩
    refine ⟨T ++ A, fun v hv => ?_, by rwa [List.append_assoc]⟩
    rcases List.mem_append.1 hv with hv | hv
    · exact hT v hv
    · exact hA v hv
  have away : ∀ {j : Nat} {p : List W} {t s' : State},
      (∃ top, Recorded g (top ++ base) t ∧ List.Sublist p top ∧ ∀ v ∈ top, own v) → KeepsReal g m t.mem →
      sig.away t s' → Conf.Over g own base m (.run s' (p.drop j) none) := by
    rintro j p t s' ⟨top, h1, h2, h3⟩ hk h
    obtain ⟨T, hT, hrec⟩ := H.awayAdds h _ h1
    refine ⟨⟨T ++ top, by rwa [List.append_assoc],
      ((List.drop_sublist j _).trans h2).trans (List.sublist_append_right ..), fun v hv => ?_⟩,
      by simp, hk.trans (H.awayReal h h1 hO.real)⟩
    rcases List.mem_append.1 hv with hv | hv
    · exact hT v hv
    · exact h3 v hv
  have more : ∀ {p top : List W} {t : State}, List.Sublist p top → (∀ v ∈ top, own v) →
      (∃ T, (∀ v ∈ T, own v) ∧ Recorded g (T ++ (top ++ base)) t) →
      ∃ top, Recorded g (top ++ base) t ∧ List.Sublist p top ∧ ∀ v ∈ top, own v := by
    rintro p top t h2 h3 ⟨T, hT, hrec⟩
    refine ⟨T ++ top, by rwa [List.append_assoc], h2.trans (List.sublist_append_right ..), fun v hv => ?_⟩
    rcases List.mem_append.1 hv with hv | hv
    · exact hT v hv
    · exact h3 v hv
  cases hs with
  | work hgs hm hl =>
    obtain ⟨⟨top, h1, h2, h3⟩, hleaf, hk⟩ := hc
    exact ⟨⟨top, h1.region hgs hm, h2, h3⟩, fun r v e => by rw [hl r v e]; exact hleaf r v e,
      hk.trans (.region hm)⟩
  | signal h =>
    obtain ⟨⟨top, h1, h2, h3⟩, hleaf, hk⟩ := hc
    obtain ⟨T, hT, hrec⟩ := H.adds h _ h1
    refine ⟨⟨T ++ top, by rwa [List.append_assoc], h2.trans (List.sublist_append_right ..), fun v hv => ?_⟩,
      fun r v e => by rw [(H.same h).regs]; exact hleaf r v e, hk.trans (H.real h h1 hO.real)⟩
    rcases List.mem_append.1 hv with hv | hv
    · exact hT v hv
    · exact h3 v hv
  | call hp ha hv hr =>
    obtain ⟨⟨top, h1, h2, h3⟩, _, hk⟩ := hc
    obtain ⟨_, c2, _, c3, _⟩ := hp.interrupted h1 ha (H.push hO _) (fun _ => hO.real _ hv) hr
    obtain ⟨_, _, T, hT, A, hA, hrec⟩ := c2 rfl
    refine ⟨⟨T ++ _ :: (A ++ top), by simpa using hrec, ?_, fun v hv' => ?_⟩, by simp, hk.trans (c3 trivial)⟩
    · exact (List.Sublist.cons_cons _ (h2.trans (List.sublist_append_right ..))).trans
        (List.sublist_append_right ..)
    · simp only [List.mem_append, List.mem_cons] at hv'
      rcases hv' with hv' | rfl | hv' | hv'
      · exact hT v hv'
      · exact hv
      · exact hA v hv'
      · exact h3 v hv'
  | callTrap hp ha hv hr =>
    obtain ⟨⟨top, h1, h2, h3⟩, _, hk⟩ := hc
    exact (hp.interrupted h1 ha (H.push hO _) (fun _ => hO.real _ hv) hr).1 _ rfl
  | ret hk ha he hr =>
    obtain ⟨⟨top, h1, h2, h3⟩, _, hreal⟩ := hc
    obtain ⟨_, c2, c3, _⟩ := sound h1 h2 h3 hk ha he hr
    exact ⟨c2 rfl, by simp, hreal.trans c3⟩
  | retTrap hk ha he hr =>
    obtain ⟨⟨top, h1, h2, h3⟩, _, hreal⟩ := hc
    exact (sound h1 h2 h3 hk ha he hr).1 _ rfl
  | enter hp ha hr =>
    obtain ⟨⟨top, h1, h2, h3⟩, _, hk⟩ := hc
    obtain ⟨_, c2, c3, _⟩ := hp.interrupted h1 ha (H.reg hO _) hr
    obtain ⟨d1, _, _, ⟨T, hT, hrec⟩, _⟩ := c2 rfl
    refine ⟨⟨T ++ top, by rwa [List.append_assoc], h2.trans (List.sublist_append_right ..), fun v hv => ?_⟩,
      ?_, hk.trans (c3 trivial)⟩
    · rcases List.mem_append.1 hv with hv | hv
      · exact hT v hv
      · exact h3 v hv
    · intro r v e
      simp only [Option.some.injEq, Prod.mk.injEq] at e
      obtain ⟨rfl, rfl⟩ := e
      exact d1
  | enterTrap hp ha hr =>
    obtain ⟨⟨top, h1, h2, h3⟩, _, hk⟩ := hc
    exact (hp.interrupted h1 ha (H.reg hO _) hr).1 _ rfl
  | leave hp he hr =>
    obtain ⟨⟨top, h1, h2, h3⟩, hleaf, hk⟩ := hc
    obtain ⟨_, c2, c3, _⟩ := hp.interrupted h1 (he.trans (hleaf _ _ rfl).symm) (H.reg hO _) hr
    obtain ⟨_, ⟨T, hT, hrec⟩, _⟩ := c2 rfl
    refine ⟨⟨T ++ top, by rwa [List.append_assoc], h2.trans (List.sublist_append_right ..), fun v hv => ?_⟩,
      by simp, hk.trans (c3 trivial)⟩
    rcases List.mem_append.1 hv with hv | hv
    · exact hT v hv
    · exact h3 v hv
  | leaveTrap hp he hr =>
    obtain ⟨⟨top, h1, h2, h3⟩, hleaf, hk⟩ := hc
    exact (hp.interrupted h1 (he.trans (hleaf _ _ rfl).symm) (H.reg hO _) hr).1 _ rfl
  | unwind k =>
    obtain ⟨⟨top, h1, h2, h3⟩, _, hk⟩ := hc
    exact ⟨⟨top, h1, (List.drop_sublist k _).trans h2, h3⟩, by simp, hk⟩
  | jump j h =>
    obtain ⟨⟨top, h1, h2, h3⟩, _, hk⟩ := hc
    exact away ⟨top, h1, h2, h3⟩ hk h
  | callJump j hp ha hv hr h =>
    obtain ⟨⟨top, h1, h2, h3⟩, _, hk⟩ := hc
    obtain ⟨_, _, _, c3, c4⟩ := hp.interrupted h1 ha (H.push hO _) (fun _ => hO.real _ hv) hr
    exact away (more h2 h3 (c4 hv)) (hk.trans (c3 trivial)) h
  | retJump j hk ha he hr h =>
    obtain ⟨⟨top, h1, h2, h3⟩, _, hreal⟩ := hc
    obtain ⟨_, _, c3, c4⟩ := sound h1 h2 h3 hk ha he hr
    exact away c4 (hreal.trans c3) h
  | enterJump j hp ha hr h =>
    obtain ⟨⟨top, h1, h2, h3⟩, _, hk⟩ := hc
    obtain ⟨_, _, c3, c4, _⟩ := hp.interrupted h1 ha (H.reg hO _) hr
    exact away (more h2 h3 c4) (hk.trans (c3 trivial)) h
  | leaveJump j hp he hr h =>
    obtain ⟨⟨top, h1, h2, h3⟩, hleaf, hk⟩ := hc
    obtain ⟨_, _, c3, c4, _⟩ := hp.interrupted h1 (he.trans (hleaf _ _ rfl).symm) (H.reg hO _) hr
    exact away (more h2 h3 c4) (hk.trans (c3 trivial)) h

theorem Conf.Over.run {sig : Sigs} {win : Code → Prop} {own : W → Prop}
    {g : W} (H : CalmSig sig own g) (hO : OwnOk win own) {base : List W} {m : Mem} {c c' : Conf}
    (hc : c.Over g own base m) (hs : SigRun sig win own g c c') : c'.Over g own base m := by
  induction hs with
  | refl => exact hc
  | step _ h ih => exact ih.step H hO h

theorem Conf.Over.start {g : W} {own : W → Prop} {base : List W} {s : State} (h : Recorded g base s) :
    (Conf.run s [] none).Over g own base s.mem :=
  ⟨⟨[], h, .refl _, by simp⟩, by simp, .refl _ _⟩

/-- Honest handlers are calm, to any depth. -/
theorem handled_calm {win : Code → Prop} {own : W → Prop} (hO : OwnOk win own) (g : W) :
    ∀ n, CalmSig (Handled win own g n) own g
  | 0 => ⟨fun h => h.elim, fun h => h.elim, fun h => h.elim, fun h => h.elim, fun h => h.elim⟩
  | n + 1 => by
    have H := handled_calm hO g n
    refine ⟨?_, ?_, ?_, ?_, ?_⟩
    · rintro K s s' ⟨s1, s2, h1, h2, h3⟩
      exact ⟨h3.regs, h3.flags, h3.gs, h3.keeps⟩
    · rintro K s s' ⟨s1, s2, h1, h2, h3⟩ l hl
      have hr1 := hl.region h1.gs h1.mem
      obtain ⟨⟨top, hr, _, ht⟩, _⟩ := (Conf.Over.start hr1).run H hO h2
      exact ⟨top, ht, hr.region (h3.gs.trans (hl.gs.trans hr.gs.symm)) fun x _ => by rw [h3.mem]⟩
    · rintro K s s' l ⟨s1, s2, h1, h2, h3⟩ hl _
      have hr1 := hl.region h1.gs h1.mem
      obtain ⟨_, _, hk⟩ := (Conf.Over.start hr1).run H hO h2
      rw [h3.mem]
      exact (KeepsReal.region h1.mem).trans hk
    · rintro s s' ⟨s1, s2, q, leaf, h1, h2, h3⟩ l hl
      have hr1 := hl.region h1.gs h1.mem
      obtain ⟨⟨top, hr, _, ht⟩, _⟩ := (Conf.Over.start hr1).run H hO h2
      exact ⟨top, ht, hr.region h3.gs h3.mem⟩
    · rintro s s' l ⟨s1, s2, q, leaf, h1, h2, h3⟩ hl _
      have hr1 := hl.region h1.gs h1.mem
      obtain ⟨_, _, hk⟩ := (Conf.Over.start hr1).run H hO h2
      exact ((KeepsReal.region h1.mem).trans hk).trans (.region h3.mem)

end Verif
