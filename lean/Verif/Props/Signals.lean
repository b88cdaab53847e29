import Verif.Signals

/-! Snippets and threads which are interrupted by signal handlers (C99). -/

namespace Verif

/-! ## The region as a list of slots -/

/-- The guards and the slots from the bottom on hold `l`, whose last element is the lowest. -/
def Slots (g : W) (m : Mem) : List W → Prop
  | [] => m.read64 (g + BitVec.ofNat 64 24) = 0 ∧ m.read64 (g + BitVec.ofNat 64 16) = 0
  | x :: l => m.read64 (g + BitVec.ofNat 64 (32 + 8 * l.length)) = x ∧ Slots g m l

theorem Slots.tail {g : W} {m : Mem} {l : List W} : ∀ {top : List W}, Slots g m (top ++ l) → Slots g m l
  | [], h => h
  | _ :: _, h => Slots.tail h.2

theorem Slots.base {g : W} {m : Mem} {l : List W} (h : Slots g m l) : Slots g m [] :=
  Slots.tail (top := l) (by rwa [List.append_nil])

theorem Slots.keep {g : W} {m m' : Mem} : ∀ {l : List W}, Slots g m l → 32 + 8 * l.length ≤ regionSize →
    (∀ a, 16 ≤ a → a + 8 ≤ 32 + 8 * l.length → m'.read64 (g + BitVec.ofNat 64 a) = m.read64 (g + BitVec.ofNat 64 a)) →
    Slots g m' l
  | [], h, _, hk => ⟨(hk 24 (by decide) (by decide)).trans h.1, (hk 16 (by decide) (by decide)).trans h.2⟩
  | x :: l, h, hr, hk => by
    rw [List.length_cons] at hr hk
    exact ⟨(hk _ (by omega) (by omega)).trans h.1, h.2.keep (by omega) fun a h1 h2 => hk a h1 (by omega)⟩

theorem Slots.get {g : W} {m : Mem} : ∀ {l : List W}, Slots g m l → ∀ (i : Nat) (h : i < l.length),
    m.read64 (g + BitVec.ofNat 64 (24 + 8 * (l.length - i))) = l[i]
  | x :: l, h, 0, _ => by
    have e : 24 + 8 * ((x :: l).length - 0) = 32 + 8 * l.length := by rw [List.length_cons]; omega
    rw [e]; exact h.1
  | x :: l, h, i + 1, hi => by
    rw [List.length_cons] at hi
    have e : 24 + 8 * ((x :: l).length - (i + 1)) = 24 + 8 * (l.length - i) := by
      rw [List.length_cons]; omega
    rw [e]; exact h.2.get i (by omega)

theorem slots_of {g : W} {m : Mem} : ∀ {l : List W},
    (∀ (i : Nat) (h : i < l.length), m.read64 (g + BitVec.ofNat 64 (24 + 8 * (l.length - i))) = l[i]) →
    Slots g m [] → Slots g m l
  | [], _, h => h
  | x :: l, hi, h => by
    refine ⟨?_, slots_of (fun i hl => ?_) h⟩
    · have := hi 0 (by simp)
      have e : 24 + 8 * ((x :: l).length - 0) = 32 + 8 * l.length := by rw [List.length_cons]; omega
      rw [e] at this; exact this
    · have := hi (i + 1) (by simpa using hl)
      have e : 24 + 8 * ((x :: l).length - (i + 1)) = 24 + 8 * (l.length - i) := by
        rw [List.length_cons]; omega
      rw [e] at this; exact this

/-- The address of slot `n`, counted from the bottom. -/
def slotAt (g : W) (n : Nat) : W := g + BitVec.ofNat 64 (32 + 8 * n)

theorem Recorded.slots {g : W} {l : List W} {s : State} (h : Recorded g l s) : Slots g s.mem l := by
  refine slots_of (fun i hi => ?_) ⟨?_, h.guard⟩
  · rw [← h.slot (Nat.le_of_lt hi)]; exact h.holds.entries i hi
  · have := h.holds.guard
    rw [State.entry, h.slot (Nat.le_refl _)] at this
    simpa using this

theorem recorded_of {g : W} {l : List W} {s : State} (hg : s.gs = g)
    (hp : s.mem.read64 g = slotAt g l.length) (hs : Slots g s.mem l) (hr : 32 + 8 * l.length ≤ regionSize) :
    Recorded g l s := by
  have hsh : s.shadow = g + BitVec.ofNat 64 (32 + 8 * l.length) := by rw [State.shadow, hg]; exact hp
  have hz : regionSize = 8388608 := rfl
  have slot : ∀ i, i ≤ l.length → s.shadow - BitVec.ofNat 64 (8 * (i + 1)) =
      g + BitVec.ofNat 64 (24 + 8 * (l.length - i)) := by
    intro i hi; rw [hsh]; bv_omega
  refine ⟨hg, hsh, ⟨fun i hi => ?_, ?_⟩, hs.base.2, hr⟩
  · rw [State.entry, slot i (Nat.le_of_lt hi)]; exact hs.get i hi
  · rw [State.entry, slot _ (Nat.le_refl _)]
    simpa using hs.base.1

theorem Recorded.ptr {g : W} {l : List W} {s : State} (h : Recorded g l s) :
    s.mem.read64 g = slotAt g l.length := by
  have := h.pointer
  rwa [State.shadow, h.gs] at this

/-- A write to the pointer does not change slots. -/
theorem read_write_ptr (g v : W) (m : Mem) {a : Nat} (h1 : 8 ≤ a) (h2 : a + 8 ≤ regionSize) :
    (m.write64 g v).read64 (g + BitVec.ofNat 64 a) = m.read64 (g + BitVec.ofNat 64 a) := by
  refine read64_write64_sep _ _ _ _ ?_
  have := sep_offsets g (a := a) (n := 8) (b := 0) (m := 8) h2 (by decide) (Or.inr (by omega))
    (by decide) (by decide)
  rwa [gs_zero] at this

theorem read_write_slot (g v : W) (m : Mem) {a b : Nat} (ha : a + 8 ≤ regionSize) (hb : b + 8 ≤ regionSize)
    (h : a + 8 ≤ b ∨ b + 8 ≤ a) :
    (m.write64 (g + BitVec.ofNat 64 b) v).read64 (g + BitVec.ofNat 64 a) = m.read64 (g + BitVec.ofNat 64 a) :=
  read64_write64_sep _ _ _ _ (sep_offsets g ha hb h (by decide) (by decide))

theorem Slots.ptr {g v : W} {m : Mem} {l : List W} (h : Slots g m l) (hr : 32 + 8 * l.length ≤ regionSize) :
    Slots g (m.write64 g v) l :=
  h.keep hr fun _ h1 h2 => read_write_ptr g v m (by omega) (by omega)

theorem Slots.above {g v : W} {m : Mem} {l : List W} {n : Nat} (h : Slots g m l) (hn : l.length ≤ n)
    (hr : 32 + 8 * n + 8 ≤ regionSize) : Slots g (m.write64 (slotAt g n) v) l :=
  h.keep (by omega) fun _ h1 h2 => read_write_slot g v m (by omega) (by omega) (Or.inl (by omega))

/-- Slots which do not look like guards still do not. -/
def KeepsReal (g : W) (m m' : Mem) : Prop :=
  ∀ n, 32 + 8 * n + 8 ≤ regionSize → ¬ GuardLike (m.read64 (slotAt g n)) →
    ¬ GuardLike (m'.read64 (slotAt g n))

theorem KeepsReal.refl (g : W) (m : Mem) : KeepsReal g m m := fun _ _ h => h

theorem KeepsReal.trans {g : W} {a b c : Mem} (h : KeepsReal g a b) (h' : KeepsReal g b c) :
    KeepsReal g a c := fun n hn hx => h' n hn (h n hn hx)

theorem slot_inRange {g x : W} {a n : Nat} (ha : a + n ≤ regionSize)
    (hx : InRange x (g + BitVec.ofNat 64 a) n) : InRange x g regionSize := by
  have hz : regionSize = 8388608 := rfl
  exact inRange_sub hx (by rw [off_toNat (by omega)]; exact ha)

theorem region_read {g : W} {m m' : Mem} (h : ∀ x, InRange x g regionSize → m' x = m x) {a : Nat}
    (ha : a + 8 ≤ regionSize) : m'.read64 (g + BitVec.ofNat 64 a) = m.read64 (g + BitVec.ofNat 64 a) :=
  read64_eq _ _ _ fun x hx => h x (slot_inRange ha hx)

theorem region_ptr {g : W} {m m' : Mem} (h : ∀ x, InRange x g regionSize → m' x = m x) :
    m'.read64 g = m.read64 g := by
  have := region_read h (a := 0) (by decide)
  rwa [gs_zero] at this

theorem KeepsReal.region {g : W} {m m' : Mem} (h : ∀ x, InRange x g regionSize → m' x = m x) :
    KeepsReal g m m' := fun n hn hx => by
  rw [slotAt, region_read h (by omega)]; exact hx

theorem Recorded.region {g : W} {l : List W} {s s' : State} (h : Recorded g l s) (hg : s'.gs = s.gs)
    (hm : ∀ x, InRange x g regionSize → s'.mem x = s.mem x) : Recorded g l s' :=
  recorded_of (hg.trans h.gs) ((region_ptr hm).trans h.ptr)
    (h.slots.keep h.room fun a _ h2 => region_read hm (by have := h.room; omega)) h.room

/-! ## What a signal may do to a snippet -/

/-- Registers are restored, `K` is untouched. -/
structure Same (K : W → Prop) (s s' : State) : Prop where
  regs : s'.regs = s.regs
  flags : s'.flags = s.flags
  gs : s'.gs = s.gs
  keeps : ∀ x, K x → s'.mem x = s.mem x

/-- The recorded addresses stay; more may be left above them, all in `own`. -/
def Adds (g : W) (own : W → Prop) (s s' : State) : Prop :=
  ∀ l, Recorded g l s → ∃ top, (∀ v ∈ top, own v) ∧ Recorded g (top ++ l) s'

/-- What is known of the handlers. -/
structure CalmSig (sig : Sigs) (own : W → Prop) (g : W) : Prop where
  same : ∀ {K s s'}, sig.back K s s' → Same K s s'
  adds : ∀ {K s s'}, sig.back K s s' → Adds g own s s'
  real : ∀ {K s s' l}, sig.back K s s' → Recorded g l s → (∀ v, own v → ¬ GuardLike v) → KeepsReal g s.mem s'.mem
  awayAdds : ∀ {s s'}, sig.away s s' → Adds g own s s'
  awayReal : ∀ {s s' l}, sig.away s s' → Recorded g l s → (∀ v, own v → ¬ GuardLike v) → KeepsReal g s.mem s'.mem

/-! ## Straight-line parts -/

/-- The snippet is in the straight-line part `c`, which it would leave in state `u1`. -/
structure InPart (K : W → Prop) (c : Code) (u1 t : State) : Prop where
  out : ∃ u, Str K c u u1 ∧ AgreeOn K u t

theorem AgreeOn.same {K : W → Prop} {u t t' : State} (h : AgreeOn K u t) (hs : Same K t t') :
    AgreeOn K u t' :=
  ⟨hs.regs.trans h.regs, hs.flags.trans h.flags, hs.gs.trans h.gs,
    fun x hx => (hs.keeps x hx).trans (h.mem x hx)⟩

theorem InPart.same {K : W → Prop} {c : Code} {u1 t t' : State} (h : InPart K c u1 t) (hs : Same K t t') :
    InPart K c u1 t' := by
  obtain ⟨u, h1, h2⟩ := h
  exact ⟨u, h1, h2.same hs⟩

/-- One instruction of such a part. -/
theorem InPart.go {K : W → Prop} {i : Instr} {c k k' w : Code} {u1 t t' : State}
    (h : InPart K (i :: c) u1 t) (hg : Go w (i :: (c ++ k)) t k' t') :
    k' = c ++ k ∧ InPart K c u1 t' ∧ ∀ x, ¬ K x → t'.mem x = t.mem x := by
  obtain ⟨u, h1, h2⟩ := h
  cases h1 with
  | cons ht he hs =>
    obtain ⟨s1, h3, h4, h5⟩ := Go.agree h2 ht hg
    obtain ⟨rfl, rfl⟩ := h3.det (.next he)
    exact ⟨rfl, ⟨_, hs, h4⟩, h5⟩

theorem InPart.not_illegal {K : W → Prop} {c : Code} {u1 t : State} (h : InPart K (.illegal :: c) u1 t) :
    False := by
  obtain ⟨u, h1, h2⟩ := h
  cases h1 with
  | cons ht he hs => simp [exec] at he

theorem InPart.gs {K : W → Prop} {c : Code} {u1 t : State} (h : InPart K c u1 t) : t.gs = u1.gs := by
  obtain ⟨u, h1, h2⟩ := h
  rw [h2.gs]
  clear h2
  induction h1 with
  | nil => rfl
  | @cons i k a b d _ he _ ih =>
    rw [← ih]
    cases i <;> simp [exec] at he <;> (try subst he) <;> (try rfl)
    all_goals (split at he <;> simp at he; subst he; rfl)

/-! ## Interrupted checks -/

/-- The surroundings of a check: it looks at `ret`, which is stored in `K`. -/
structure CheckCtx (K : W → Prop) (g : W) (t1 t2 : Reg) (off : Int) (s1 : State) (ret : W) : Prop where
  ne : t1 ≠ t2
  rsp1 : t1 ≠ .rsp
  rsp2 : t2 ≠ .rsp
  cov : Covers K (s1.regs .rsp + BitVec.ofInt 64 off) 8
  apart : ∀ x, K x → ¬ InRange x g regionSize
  ret : s1.mem.read64 (s1.regs .rsp + BitVec.ofInt 64 off) = ret

/-- Only the scratch registers, the flags and memory outside `K` have changed since `s1`. -/
structure Core (K : W → Prop) (g : W) (t1 t2 : Reg) (s1 t : State) : Prop where
  gs : t.gs = g
  regs : ∀ r, r ≠ t1 → r ≠ t2 → t.regs r = s1.regs r
  mem : ∀ x, K x → t.mem x = s1.mem x

theorem Core.same {K : W → Prop} {g : W} {t1 t2 : Reg} {s1 t t' : State} (h : Core K g t1 t2 s1 t)
    (hs : Same K t t') : Core K g t1 t2 s1 t' :=
  ⟨hs.gs.trans h.gs, fun r h1 h2 => by rw [hs.regs]; exact h.regs r h1 h2,
    fun x hx => (hs.keeps x hx).trans (h.mem x hx)⟩

/-- What is known of the signals during a check.  `honest` means that it is going to succeed; otherwise
signals which find the pointer at the guard leave the region alone. -/
structure CheckSigs (sigc : Code → State → State → Prop) (K own : W → Prop) (g : W) (honest : Prop) :
    Prop where
  same : ∀ {k a b}, sigc k a b → Same K a b
  adds : ∀ {k a b}, sigc k a b → Adds g own a b
  real : ∀ {k a b l}, honest → sigc k a b → Recorded g l a → KeepsReal g a.mem b.mem
  low : ∀ {k a b}, ¬ honest → sigc k a b → a.mem.read64 g = g + BitVec.ofNat 64 24 → Quiet g a b

/-- A property of the entries which are still to be looked at. -/
structure Search (Rem : List W → Prop) (honest : Prop) (ret : W) : Prop where
  step : ∀ {x L}, Rem (x :: L) → x ≠ ret → Rem L
  last : honest → ¬ Rem []
  real : ∀ {x L}, honest → Rem (x :: L) → ¬ GuardLike x

/-- The address of the topmost entry of `L`, or of the guard. -/
def headAt (g : W) (L : List W) : W := g + BitVec.ofNat 64 (24 + 8 * L.length)

/-- The pointer has just been moved to the topmost entry of `L`, or to the guard. -/
def Popped (g : W) (own : W → Prop) (honest : Prop) (t : State) : List W → Prop
  | [] => ¬ honest ∧ t.mem.read64 g = g + BitVec.ofNat 64 24 ∧ Slots g t.mem []
  | x :: L => (∃ T, (∀ v ∈ T, own v) ∧ Recorded g (T ++ L) t) ∧ 32 + 8 * L.length + 8 ≤ regionSize ∧
      (honest → ¬ GuardLike (t.mem.read64 (headAt g (x :: L))))

theorem Recorded.same {g : W} {own : W → Prop} {t t' : State} {L : List W} (hs : Adds g own t t')
    (h : ∃ T, (∀ v ∈ T, own v) ∧ Recorded g (T ++ L) t) :
    ∃ T, (∀ v ∈ T, own v) ∧ Recorded g (T ++ L) t' := by
  obtain ⟨T, h1, h2⟩ := h
  obtain ⟨T', h3, h4⟩ := hs _ h2
  refine ⟨T' ++ T, fun v hv => ?_, by rwa [List.append_assoc]⟩
  rcases List.mem_append.1 hv with hv | hv
  · exact h3 v hv
  · exact h1 v hv

theorem headAt_cons (g x : W) (L : List W) : headAt g (x :: L) = slotAt g L.length := by
  unfold headAt slotAt; rw [List.length_cons]; congr 2; omega

theorem Popped.same {sigc : Code → State → State → Prop} {K own : W → Prop} {g : W} {honest : Prop}
    (H : CheckSigs sigc K own g honest) {k : Code} {t t' : State} {L : List W} (hs : sigc k t t')
    (h : Popped g own honest t L) : Popped g own honest t' L := by
  cases L with
  | nil =>
    obtain ⟨h0, h1, h2⟩ := h
    have q := H.low h0 hs h1
    exact ⟨h0, (region_ptr q).trans h1, (region_read q (by decide)).trans h2.1,
      (region_read q (by decide)).trans h2.2⟩
  | cons x L =>
    obtain ⟨h1, h2, h3⟩ := h
    refine ⟨Recorded.same (H.adds hs) h1, h2, fun hh => ?_⟩
    obtain ⟨T, _, hr⟩ := h1
    have := h3 hh
    rw [headAt_cons] at this ⊢
    exact H.real hh hs hr _ h2 this

/-- How a check has come out: the address is zero, there were no entries left and the guard was popped, or
the topmost entry of `L` has been popped which is the address. -/
def Found (g : W) (own : W → Prop) (Rem : List W → Prop) (ret : W) (honest : Prop) (t : State) : Prop :=
  (ret = 0 ∧ Rem [] ∧ ¬ honest) ∨ ∃ L, Rem (ret :: L) ∧ ∃ T, (∀ v ∈ T, own v) ∧ Recorded g (T ++ L) t

/-- Where an interrupted check may be. -/
inductive CheckAt (K own : W → Prop) (g : W) (t1 t2 : Reg) (tm : Temps) (s1 : State) (rest : Code)
    (l : List W) (ret : W) (Rem : List W → Prop) (honest : Prop) (Fin : State → State → Prop) :
    Code → State → Prop
  | save (c : Code) {t : State} : InPart K c s1 t →
      (∃ T, (∀ v ∈ T, own v) ∧ Recorded g (T ++ l) t) →
      CheckAt K own g t1 t2 tm s1 rest l ret Rem honest Fin (c ++ (validateRa t1 t2 tm ++ rest)) t
  | bind (L : List W) {t : State} : Core K g t1 t2 s1 t → t.regs t1 = slotAt g L.length → Rem L →
      (∃ T, (∀ v ∈ T, own v) ∧ Recorded g (T ++ L) t) →
      CheckAt K own g t1 t2 tm s1 rest l ret Rem honest Fin (.bind .loop :: loopCode t1 t2 tm.spOffset rest) t
  | lea (L : List W) {t : State} : Core K g t1 t2 s1 t → t.regs t1 = slotAt g L.length → Rem L →
      (∃ T, (∀ v ∈ T, own v) ∧ Recorded g (T ++ L) t) →
      CheckAt K own g t1 t2 tm s1 rest l ret Rem honest Fin (loopCode t1 t2 tm.spOffset rest) t
  | load (L : List W) {t : State} : Core K g t1 t2 s1 t → t.regs t1 = headAt g L → Rem L →
      (∃ T, (∀ v ∈ T, own v) ∧ Recorded g (T ++ L) t) →
      CheckAt K own g t1 t2 tm s1 rest l ret Rem honest Fin ((loopCode t1 t2 tm.spOffset rest).drop 1) t
  | store (L : List W) {t : State} : Core K g t1 t2 s1 t → t.regs t1 = headAt g L → Rem L →
      t.regs t2 = L.headD 0 → (∃ T, (∀ v ∈ T, own v) ∧ Recorded g (T ++ L) t) →
      CheckAt K own g t1 t2 tm s1 rest l ret Rem honest Fin ((loopCode t1 t2 tm.spOffset rest).drop 2) t
  | cmp (L : List W) {t : State} : Core K g t1 t2 s1 t → t.regs t1 = headAt g L → Rem L →
      t.regs t2 = L.headD 0 → Popped g own honest t L →
      CheckAt K own g t1 t2 tm s1 rest l ret Rem honest Fin ((loopCode t1 t2 tm.spOffset rest).drop 3) t
  | je (L : List W) {t : State} : Core K g t1 t2 s1 t → t.regs t1 = headAt g L → Rem L →
      t.zf = decide (L.headD 0 = ret) → Popped g own honest t L →
      CheckAt K own g t1 t2 tm s1 rest l ret Rem honest Fin ((loopCode t1 t2 tm.spOffset rest).drop 4) t
  | cmpD (L : List W) {t : State} : Core K g t1 t2 s1 t → t.regs t1 = headAt g L → Rem L →
      L.headD 0 ≠ ret → Popped g own honest t L →
      CheckAt K own g t1 t2 tm s1 rest l ret Rem honest Fin ((loopCode t1 t2 tm.spOffset rest).drop 5) t
  | je2 (L : List W) {t : State} : Core K g t1 t2 s1 t → t.regs t1 = headAt g L → Rem L →
      L.headD 0 ≠ ret → (honest → t.zf = false) → (L = [] → t.zf = true) → Popped g own honest t L →
      CheckAt K own g t1 t2 tm s1 rest l ret Rem honest Fin ((loopCode t1 t2 tm.spOffset rest).drop 6) t
  | jmp (L : List W) {t : State} : Core K g t1 t2 s1 t → t.regs t1 = slotAt g L.length → Rem L →
      (∃ T, (∀ v ∈ T, own v) ∧ Recorded g (T ++ L) t) →
      CheckAt K own g t1 t2 tm s1 rest l ret Rem honest Fin ((loopCode t1 t2 tm.spOffset rest).drop 7) t
  | dead {k : Code} {t : State} : ¬ honest →
      CheckAt K own g t1 t2 tm s1 rest l ret Rem honest Fin (.illegal :: k) t
  | rest (c : Code) (u u3 : State) {t : State} : Fin u u3 → InPart K c u3 t →
      Found g own Rem ret honest t → CheckAt K own g t1 t2 tm s1 rest l ret Rem honest Fin c t

/-- Signals do not move it. -/
theorem CheckAt.signal {K own : W → Prop} {g : W} {t1 t2 : Reg} {tm : Temps} {s1 : State} {rest : Code}
    {l : List W} {ret : W} {Rem : List W → Prop} {honest : Prop} {Fin : State → State → Prop}
    {sigc : Code → State → State → Prop} (H : CheckSigs sigc K own g honest) {k : Code} {t t' : State}
    (h : CheckAt K own g t1 t2 tm s1 rest l ret Rem honest Fin k t) (hs : sigc k t t') :
    CheckAt K own g t1 t2 tm s1 rest l ret Rem honest Fin k t' := by
  have S := H.same hs
  have A := H.adds hs
  cases h with
  | save c h1 h2 => exact .save c (h1.same S) (Recorded.same A h2)
  | bind L h1 h2 h3 h4 => exact .bind L (h1.same S) (by rw [S.regs]; exact h2) h3 (Recorded.same A h4)
  | lea L h1 h2 h3 h4 => exact .lea L (h1.same S) (by rw [S.regs]; exact h2) h3 (Recorded.same A h4)
  | load L h1 h2 h3 h4 => exact .load L (h1.same S) (by rw [S.regs]; exact h2) h3 (Recorded.same A h4)
  | store L h1 h2 h3 h4 h5 =>
    exact .store L (h1.same S) (by rw [S.regs]; exact h2) h3 (by rw [S.regs]; exact h4) (Recorded.same A h5)
  | cmp L h1 h2 h3 h4 h5 =>
    exact .cmp L (h1.same S) (by rw [S.regs]; exact h2) h3 (by rw [S.regs]; exact h4) (h5.same H hs)
  | je L h1 h2 h3 h4 h5 =>
    exact .je L (h1.same S) (by rw [S.regs]; exact h2) h3 (by rw [State.zf, S.flags]; exact h4)
      (h5.same H hs)
  | cmpD L h1 h2 h3 h4 h5 =>
    exact .cmpD L (h1.same S) (by rw [S.regs]; exact h2) h3 h4 (h5.same H hs)
  | je2 L h1 h2 h3 h4 h5 h6 h7 =>
    exact .je2 L (h1.same S) (by rw [S.regs]; exact h2) h3 h4 (by rw [State.zf, S.flags]; exact h5)
      (by rw [State.zf, S.flags]; exact h6) (h7.same H hs)
  | jmp L h1 h2 h3 h4 => exact .jmp L (h1.same S) (by rw [S.regs]; exact h2) h3 (Recorded.same A h4)
  | dead h => exact .dead h
  | rest c u u3 h1 h2 h3 =>
    refine .rest _ u u3 h1 (h2.same S) ?_
    rcases h3 with h3 | ⟨L, h3, h4⟩
    · exact Or.inl h3
    · exact Or.inr ⟨L, h3, Recorded.same A h4⟩

theorem Core.write {K : W → Prop} {g v : W} {t1 t2 : Reg} {s1 t : State} (h : Core K g t1 t2 s1 t)
    {a : Nat} (ha : a + 8 ≤ regionSize) (hK : ∀ x, K x → ¬ InRange x g regionSize) :
    Core K g t1 t2 s1 { t with mem := t.mem.write64 (g + BitVec.ofNat 64 a) v } :=
  ⟨h.gs, h.regs, fun x hx =>
    (write64_outRange _ _ _ _ fun hr => hK x hx (slot_inRange ha hr)).trans (h.mem x hx)⟩

theorem Core.set1 {K : W → Prop} {g v : W} {t1 t2 : Reg} {s1 t : State} (h : Core K g t1 t2 s1 t) :
    Core K g t1 t2 s1 (t.set t1 v) :=
  ⟨h.gs, fun r h1 h2 => by simp only [State.set, h1, if_false]; exact h.regs r h1 h2, h.mem⟩

theorem Core.set2 {K : W → Prop} {g v : W} {t1 t2 : Reg} {s1 t : State} (h : Core K g t1 t2 s1 t) :
    Core K g t1 t2 s1 (t.set t2 v) :=
  ⟨h.gs, fun r h1 h2 => by simp only [State.set, h2, if_false]; exact h.regs r h1 h2, h.mem⟩

theorem Core.flags {K : W → Prop} {g f : W} {t1 t2 : Reg} {s1 t : State} (h : Core K g t1 t2 s1 t) :
    Core K g t1 t2 s1 { t with flags := f } := ⟨h.gs, h.regs, h.mem⟩

/-- The region is outside of `K`. -/
theorem recorded_part {K : W → Prop} {g : W} {l : List W} {t t' : State}
    (hK : ∀ x, K x → ¬ InRange x g regionSize) (hg : t'.gs = t.gs) (hm : ∀ x, ¬ K x → t'.mem x = t.mem x)
    (h : Recorded g l t) : Recorded g l t' :=
  h.region hg fun x hx => hm x fun hk => hK x hk hx

/-- The word at the head: the topmost entry of `L`, or zero. -/
theorem Recorded.read_head {g : W} {T L : List W} {t : State} (h : Recorded g (T ++ L) t) :
    t.mem.read64 (headAt g L) = L.headD 0 := by
  have hs := h.slots.tail
  cases L with
  | nil => exact hs.1
  | cons x L => rw [headAt_cons]; exact hs.1

theorem slotAt_sub (g : W) (L : List W) (_hr : 32 + 8 * L.length ≤ regionSize) :
    slotAt g L.length - 8 = headAt g L := by
  have hz : regionSize = 8388608 := rfl
  unfold slotAt headAt; bv_omega

/-- Moving the pointer down to the head. -/
theorem popped_store {g : W} {own : W → Prop} {Rem : List W → Prop} {honest : Prop} {ret : W}
    (hS : Search Rem honest ret) {T L : List W} {t : State} (h : Recorded g (T ++ L) t) (hR : Rem L) :
    Popped g own honest { t with mem := t.mem.write64 g (headAt g L) } L := by
  have hroom := h.room
  rw [List.length_append] at hroom
  have hs := h.slots.tail
  cases L with
  | nil =>
    exact ⟨fun hh => hS.last hh hR, read64_write64 .., hs.ptr (by decide)⟩
  | cons x L =>
    rw [List.length_cons] at hroom
    refine ⟨⟨[], by simp, recorded_of h.gs ?_ ?_ ?_⟩, by omega, fun hh => ?_⟩
    · rw [headAt_cons]; exact read64_write64 ..
    · exact Slots.ptr hs.2 (by simp; omega)
    · simp; omega
    · rw [headAt_cons, slotAt]
      rw [read_write_ptr _ _ _ (by omega) (by omega)]
      rw [show t.mem.read64 (g + BitVec.ofNat 64 (32 + 8 * L.length)) = x from hs.1]
      exact hS.real hh hR

/-- One instruction of an interrupted check. -/
theorem CheckAt.go {K own : W → Prop} {g : W} {t1 t2 : Reg} {tm : Temps} {s1 : State} {rest w : Code}
    {l : List W} {ret : W} {Rem : List W → Prop} {honest : Prop} {Fin : State → State → Prop}
    (C : CheckCtx K g t1 t2 tm.spOffset s1 ret) (hS : Search Rem honest ret)
    (hw : HasLoop w t1 t2 tm.spOffset rest)
    (hl : ∀ T, (∀ v ∈ T, own v) → Rem (T ++ l))
    (hfin : ∀ t, Core K g t1 t2 s1 t → Found g own Rem ret honest t →
      CheckAt K own g t1 t2 tm s1 rest l ret Rem honest Fin rest t) {k k' : Code} {t t' : State}
    (h : CheckAt K own g t1 t2 tm s1 rest l ret Rem honest Fin k t) (hg : Go w k t k' t') :
    CheckAt K own g t1 t2 tm s1 rest l ret Rem honest Fin k' t' := by
  cases h with
  | save c h1 h2 =>
    cases c with
    | nil =>
      obtain ⟨T, hT, hr⟩ := h2
      have core : Core K g t1 t2 s1 t := by
        obtain ⟨u, hu, ha⟩ := h1
        cases hu
        exact ⟨hr.gs, fun r _ _ => by rw [ha.regs], ha.mem⟩
      simp only [validateRa, List.nil_append, List.cons_append] at hg
      cases hg with
      | goto e _ => simp [exec] at e
      | next e =>
        simp only [exec, Step.next.injEq] at e
        subst e
        have e1 : t.mem.read64 (t.gsa 0) = slotAt g (T ++ l).length := by
          rw [State.gsa, hr.gs]; simpa using hr.ptr
        rw [e1]
        refine .bind (T ++ l) core.set1 (by simp [State.set]) (hl T hT) ⟨[], by simp, ?_⟩
        exact hr.region rfl fun _ _ => rfl
    | cons i c =>
      obtain ⟨rfl, h3, h4⟩ := h1.go (k := validateRa t1 t2 tm ++ rest) hg
      obtain ⟨T, hT, hr⟩ := h2
      exact .save c h3 ⟨T, hT, recorded_part C.apart (by rw [h3.gs, h1.gs]) h4 hr⟩
  | bind L h1 h2 h3 h4 =>
    cases hg with
    | goto e _ => simp [exec] at e
    | next e => simp only [exec, Step.next.injEq] at e; subst e; exact .lea L h1 h2 h3 h4
  | lea L h1 h2 h3 h4 =>
    simp only [loopCode, List.cons_append] at hg
    cases hg with
    | goto e _ => simp [exec] at e
    | next e =>
      simp only [exec, Step.next.injEq] at e
      subst e
      obtain ⟨T, hT, hr⟩ := h4
      have hroom := hr.room
      rw [List.length_append] at hroom
      refine .load L h1.set1 ?_ h3 ⟨T, hT, hr.region rfl fun _ _ => rfl⟩
      simp only [State.set, if_true, State.ea, h2, ← slotAt_sub g L (by omega)]
      simp [sub_eq_add_neg8]
  | load L h1 h2 h3 h4 =>
    simp only [loopCode, List.cons_append, List.drop_succ_cons, List.drop_zero] at hg
    cases hg with
    | goto e _ => simp [exec] at e
    | next e =>
      simp only [exec, Step.next.injEq] at e
      subst e
      obtain ⟨T, hT, hr⟩ := h4
      refine .store L h1.set2 ?_ h3 ?_ ⟨T, hT, hr.region rfl fun _ _ => rfl⟩
      · simp [State.set, C.ne, h2]
      · rw [← hr.read_head]
        simp [State.set, State.ea, h2]
  | store L h1 h2 h3 h4 h5 =>
    simp only [loopCode, List.cons_append, List.drop_succ_cons, List.drop_zero] at hg
    cases hg with
    | goto e _ => simp [exec] at e
    | next e =>
      simp only [exec, Step.next.injEq] at e
      subst e
      obtain ⟨T, hT, hr⟩ := h5
      have e1 : t.gsa 0 = g := by rw [State.gsa, hr.gs]; simp
      rw [e1, h2]
      have := h1.write (a := 0) (v := headAt g L) (by decide) C.apart
      rw [gs_zero] at this
      exact .cmp L this h2 h3 h4 (popped_store hS hr h3)
  | cmp L h1 h2 h3 h4 h5 =>
    simp only [loopCode, List.cons_append, List.drop_succ_cons, List.drop_zero] at hg
    cases hg with
    | goto e _ => simp [exec] at e
    | next e =>
      simp only [exec, Step.next.injEq] at e
      subst e
      have e1 : t.mem.read64 (t.ea .rsp tm.spOffset) = ret := by
        rw [← C.ret, State.ea, h1.regs _ C.rsp1.symm C.rsp2.symm]
        exact read64_eq _ _ _ fun x hx => h1.mem x (C.cov x hx)
      refine .je L h1.flags h2 h3 ?_ ?_
      · rw [State.zf, cmpFlags_zf, e1, h4]
      · cases L with
        | nil => exact h5
        | cons x L =>
          obtain ⟨⟨T, hT, hr⟩, h6⟩ := h5
          exact ⟨⟨T, hT, hr.region rfl fun _ _ => rfl⟩, h6⟩
  | je L h1 h2 h3 h4 h5 =>
    simp only [loopCode, List.cons_append, List.drop_succ_cons, List.drop_zero] at hg
    by_cases hz : L.headD 0 = ret
    · rw [decide_eq_true hz] at h4
      cases hg with
      | next e => simp [exec, h4] at e
      | goto e ht =>
        simp only [exec, h4, if_true, Step.goto.injEq] at e
        obtain ⟨rfl, rfl⟩ := e
        rw [hw.done] at ht
        obtain rfl := Option.some.inj ht
        refine hfin t h1 ?_
        cases L with
        | nil => exact Or.inl ⟨hz.symm, h3, h5.1⟩
        | cons x L =>
          obtain rfl : x = ret := hz
          exact Or.inr ⟨L, h3, h5.1⟩
    · rw [decide_eq_false hz] at h4
      cases hg with
      | goto e _ => simp [exec, h4] at e
      | next e =>
        simp [exec, h4] at e
        subst e
        exact .cmpD L h1 h2 h3 hz h5
  | cmpD L h1 h2 h3 h4 h5 =>
    simp only [loopCode, List.cons_append, List.drop_succ_cons, List.drop_zero] at hg
    cases hg with
    | goto e _ => simp [exec] at e
    | next e =>
      simp only [exec, Step.next.injEq] at e
      subst e
      refine .je2 L h1.flags h2 h3 h4 (fun hh => ?_) (fun hL => ?_) ?_
      · rw [State.zf, cmpFlags_zf, read32_eq_low, h2]
        cases L with
        | nil => exact absurd hh h5.1
        | cons x L => simpa [GuardLike] using h5.2.2 hh
      · subst hL
        rw [State.zf, cmpFlags_zf, read32_eq_low, h2]
        rw [show t.mem.read64 (headAt g []) = 0 from h5.2.2.1]
        decide
      · cases L with
        | nil => exact h5
        | cons x L =>
          obtain ⟨⟨T, hT, hr⟩, h6⟩ := h5
          exact ⟨⟨T, hT, hr.region rfl fun _ _ => rfl⟩, h6⟩
  | je2 L h1 h2 h3 h4 h5 h6 h7 =>
    simp only [loopCode, List.cons_append, List.drop_succ_cons, List.drop_zero] at hg
    by_cases hz : t.zf = true
    · cases hg with
      | next e => simp [exec, hz] at e
      | goto e ht =>
        simp only [exec, hz, if_true, Step.goto.injEq] at e
        obtain ⟨rfl, rfl⟩ := e
        rw [hw.error] at ht
        obtain rfl := Option.some.inj ht
        exact .dead fun hh => by rw [h5 hh] at hz; cases hz
    · cases hg with
      | goto e _ => simp [exec, hz] at e
      | next e =>
        simp [exec, hz] at e
        subst e
        cases L with
        | nil => exact absurd (h6 rfl) hz
        | cons x L =>
          exact .jmp L h1 (by rw [h2, headAt_cons]) (hS.step h3 h4) h7.1
  | jmp L h1 h2 h3 h4 =>
    simp only [loopCode, List.cons_append, List.drop_succ_cons, List.drop_zero] at hg
    cases hg with
    | next e => simp [exec] at e
    | goto e ht =>
      simp only [exec, Step.goto.injEq] at e
      obtain ⟨rfl, rfl⟩ := e
      rw [hw.loop] at ht
      obtain rfl := Option.some.inj ht
      exact .lea L h1 h2 h3 h4
  | dead h => exact absurd hg (go_illegal _ _)
  | rest _ u u3 h1 h2 h3 =>
    cases k with
    | nil => exact absurd hg (go_nil _ _)
    | cons i c =>
      obtain ⟨rfl, h4, h5⟩ := h2.go (k := []) (by rw [List.append_nil]; exact hg)
      rw [List.append_nil]
      refine .rest _ u u3 h1 h4 ?_
      rcases h3 with h3 | ⟨L, h6, T, h7, h8⟩
      · exact Or.inl h3
      · exact Or.inr ⟨L, h6, T, h7, recorded_part C.apart (by rw [h4.gs, h2.gs]) h5 h8⟩

/-! ## Slots during a check -/

theorem KeepsReal.part {K : W → Prop} {g : W} {m m' : Mem} (hK : ∀ x, K x → ¬ InRange x g regionSize)
    (h : ∀ x, ¬ K x → m' x = m x) : KeepsReal g m m' :=
  .region fun x hx => h x fun hk => hK x hk hx

theorem KeepsReal.ptr (g v : W) (m : Mem) : KeepsReal g m (m.write64 g v) := fun n hn hx => by
  rw [slotAt, read_write_ptr _ _ _ (by omega) (by omega)]; exact hx

theorem KeepsReal.slot {g v : W} (m : Mem) {n : Nat} (hn : 32 + 8 * n + 8 ≤ regionSize)
    (hv : ¬ GuardLike v) : KeepsReal g m (m.write64 (slotAt g n) v) := fun k hk hx => by
  by_cases e : k = n
  · subst e; rw [read64_write64]; exact hv
  · unfold slotAt at hx ⊢
    rw [read_write_slot _ _ _ (by omega) (by omega) (by omega)]; exact hx

theorem exec_mem {i : Instr} {s s' : State} (h : exec i s = .next s')
    (hi : accesses i s = [] ∨ (∃ r b d, i = .load r b d) ∨ (∃ r d, i = .loadGs r d) ∨
      (∃ r b d, i = .cmpMem r b d) ∨ ∃ b d, i = .cmpDword b d) : s'.mem = s.mem := by
  rcases hi with hi | ⟨r, b, d, rfl⟩ | ⟨r, d, rfl⟩ | ⟨r, b, d, rfl⟩ | ⟨b, d, rfl⟩
  · cases i <;> simp [accesses] at hi <;> simp [exec] at h <;> (try subst h) <;> (try rfl)
    all_goals (split at h <;> simp at h; subst h; rfl)
  all_goals (simp only [exec, Step.next.injEq] at h; subst h; rfl)

theorem exec_goto_mem {i : Instr} {s s' : State} {l : Label} (h : exec i s = .goto l s') : s' = s := by
  cases i <;> simp [exec] at h
  all_goals (try (split at h <;> simp at h))
  all_goals (obtain ⟨_, rfl⟩ := h; rfl)

/-- Outside of `K` and of the region nothing has changed. -/
def KeepsRest (K : W → Prop) (g : W) (m m' : Mem) : Prop :=
  ∀ x, ¬ K x → ¬ InRange x g regionSize → m' x = m x

theorem KeepsRest.refl (K : W → Prop) (g : W) (m : Mem) : KeepsRest K g m m := fun _ _ _ => rfl

theorem KeepsRest.part {K : W → Prop} {g : W} {m m' : Mem} (h : ∀ x, ¬ K x → m' x = m x) :
    KeepsRest K g m m' := fun x hx _ => h x hx

theorem KeepsRest.write {K : W → Prop} {g v : W} {m : Mem} {a : Nat} (ha : a + 8 ≤ regionSize) :
    KeepsRest K g m (m.write64 (g + BitVec.ofNat 64 a) v) := fun _ _ hx =>
  write64_outRange _ _ _ _ fun hr => hx (slot_inRange ha hr)

theorem KeepsRest.ptr (K : W → Prop) (g v : W) (m : Mem) : KeepsRest K g m (m.write64 g v) := by
  have := KeepsRest.write (K := K) (g := g) (v := v) (m := m) (a := 0) (by decide)
  rwa [gs_zero] at this

/-- The bytes in `P`, which the signals leave alone, have changed in `K` and in the region only. -/
def RestKept (sigc : Code → State → State → Prop) (K : W → Prop) (g : W) (m m' : Mem) : Prop :=
  ∀ P : W → Prop, (∀ k a b, sigc k a b → ∀ x, P x → b.mem x = a.mem x) →
    ∀ x, P x → ¬ K x → ¬ InRange x g regionSize → m' x = m x

theorem RestKept.refl {sigc : Code → State → State → Prop} {K : W → Prop} {g : W} {m : Mem} :
    RestKept sigc K g m m := fun _ _ _ _ _ _ => rfl

theorem RestKept.go {sigc : Code → State → State → Prop} {K : W → Prop} {g : W} {m a b : Mem}
    (h : RestKept sigc K g m a) (h' : KeepsRest K g a b) : RestKept sigc K g m b :=
  fun P hP x h1 h2 h3 => (h' x h2 h3).trans (h P hP x h1 h2 h3)

theorem RestKept.signal {sigc : Code → State → State → Prop} {K : W → Prop} {g : W} {m : Mem} {k : Code}
    {a b : State} (h : RestKept sigc K g m a.mem) (hs : sigc k a b) : RestKept sigc K g m b.mem :=
  fun P hP x h1 h2 h3 => (hP k a b hs x h1).trans (h P hP x h1 h2 h3)

theorem CheckAt.real_go {K own : W → Prop} {g : W} {t1 t2 : Reg} {tm : Temps} {s1 : State} {rest w : Code}
    {l : List W} {ret : W} {Rem : List W → Prop} {honest : Prop} {Fin : State → State → Prop}
    (C : CheckCtx K g t1 t2 tm.spOffset s1 ret) {k k' : Code} {t t' : State}
    (h : CheckAt K own g t1 t2 tm s1 rest l ret Rem honest Fin k t) (hg : Go w k t k' t') :
    KeepsReal g t.mem t'.mem ∧ KeepsRest K g t.mem t'.mem := by
  cases hg with
  | goto e _ => rw [exec_goto_mem e]; exact ⟨.refl _ _, .refl _ _ _⟩
  | @next i _ _ _ e =>
    generalize hk : i :: k' = k at h
    cases h with
    | save c h1 h2 =>
      cases c with
      | nil =>
        simp only [validateRa, List.nil_append, List.cons_append, List.cons.injEq] at hk
        obtain ⟨rfl, _⟩ := hk
        rw [exec_mem e (Or.inr (Or.inr (Or.inl ⟨_, _, rfl⟩)))]; exact ⟨.refl _ _, .refl _ _ _⟩
      | cons j c =>
        simp only [List.cons_append, List.cons.injEq] at hk
        obtain ⟨rfl, rfl⟩ := hk
        have h := (h1.go (w := w) (k := validateRa t1 t2 tm ++ rest) (.next e)).2.2
        exact ⟨.part C.apart h, .part h⟩
    | rest c u u3 h1 h2 h3 =>
      subst hk
      have h := (h2.go (w := w) (k := []) (by rw [List.append_nil]; exact .next e)).2.2
      exact ⟨.part C.apart h, .part h⟩
    | store L h1 h2 h3 h4 h5 =>
      simp only [loopCode, List.cons_append, List.drop_succ_cons, List.drop_zero, List.cons.injEq] at hk
      obtain ⟨rfl, _⟩ := hk
      simp only [exec, Step.next.injEq] at e
      subst e
      have e1 : t.gsa 0 = g := by rw [State.gsa, h1.gs]; simp
      rw [e1]; exact ⟨.ptr _ _ _, .ptr _ _ _ _⟩
    | dead _ => cases hk; simp [exec] at e
    | bind | lea | je | je2 | jmp =>
      simp only [loopCode, List.cons_append, List.drop_succ_cons, List.drop_zero, List.cons.injEq] at hk
      obtain ⟨rfl, _⟩ := hk
      rw [exec_mem e (Or.inl rfl)]; exact ⟨.refl _ _, .refl _ _ _⟩
    | load =>
      simp only [loopCode, List.cons_append, List.drop_succ_cons, List.drop_zero, List.cons.injEq] at hk
      obtain ⟨rfl, _⟩ := hk
      rw [exec_mem e (Or.inr (Or.inl ⟨_, _, _, rfl⟩))]; exact ⟨.refl _ _, .refl _ _ _⟩
    | cmp =>
      simp only [loopCode, List.cons_append, List.drop_succ_cons, List.drop_zero, List.cons.injEq] at hk
      obtain ⟨rfl, _⟩ := hk
      rw [exec_mem e (Or.inr (Or.inr (Or.inr (Or.inl ⟨_, _, _, rfl⟩))))]; exact ⟨.refl _ _, .refl _ _ _⟩
    | cmpD =>
      simp only [loopCode, List.cons_append, List.drop_succ_cons, List.drop_zero, List.cons.injEq] at hk
      obtain ⟨rfl, _⟩ := hk
      rw [exec_mem e (Or.inr (Or.inr (Or.inr (Or.inr ⟨_, _, rfl⟩))))]; exact ⟨.refl _ _, .refl _ _ _⟩

/-- In an honest check there are recorded addresses at every moment. -/
theorem CheckAt.recorded {K own : W → Prop} {g : W} {t1 t2 : Reg} {tm : Temps} {s1 : State} {rest : Code}
    {l : List W} {ret : W} {Rem : List W → Prop} {honest : Prop} {Fin : State → State → Prop} {k : Code}
    {t : State} (h : CheckAt K own g t1 t2 tm s1 rest l ret Rem honest Fin k t)
    (hl : ∀ T, (∀ v ∈ T, own v) → Rem (T ++ l)) (hh : honest) :
    ∃ L, (Rem L ∨ ∃ x, Rem (x :: L)) ∧ ∃ T, (∀ v ∈ T, own v) ∧ Recorded g (T ++ L) t := by
  have pop : ∀ L, Rem L → Popped g own honest t L →
      ∃ L, (Rem L ∨ ∃ x, Rem (x :: L)) ∧ ∃ T, (∀ v ∈ T, own v) ∧ Recorded g (T ++ L) t := by
    intro L hL hp
    cases L with
    | nil => exact absurd hh hp.1
    | cons x L => exact ⟨L, Or.inr ⟨x, hL⟩, hp.1⟩
  cases h with
  | save c h1 h2 => exact ⟨l, Or.inl (by simpa using hl [] (by simp)), h2⟩
  | bind L h1 h2 h3 h4 => exact ⟨L, Or.inl h3, h4⟩
  | lea L h1 h2 h3 h4 => exact ⟨L, Or.inl h3, h4⟩
  | load L h1 h2 h3 h4 => exact ⟨L, Or.inl h3, h4⟩
  | store L h1 h2 h3 h4 h5 => exact ⟨L, Or.inl h3, h5⟩
  | cmp L h1 h2 h3 h4 h5 => exact pop L h3 h5
  | je L h1 h2 h3 h4 h5 => exact pop L h3 h5
  | cmpD L h1 h2 h3 h4 h5 => exact pop L h3 h5
  | je2 L h1 h2 h3 h4 h5 h6 h7 => exact pop L h3 h7
  | jmp L h1 h2 h3 h4 => exact ⟨L, Or.inl h3, h4⟩
  | dead h => exact absurd hh h
  | rest c u u3 h1 h2 h3 =>
    rcases h3 with h3 | ⟨L, h3, h4⟩
    · exact absurd hh h3.2.2
    · exact ⟨L, Or.inr ⟨_, h3⟩, h4⟩

/-- Interrupted runs stay inside. -/
theorem CheckAt.run {K own : W → Prop} {g : W} {t1 t2 : Reg} {tm : Temps} {s1 : State} {rest w : Code}
    {l : List W} {ret : W} {Rem : List W → Prop} {honest : Prop} {Fin : State → State → Prop}
    {sigc : Code → State → State → Prop} {fits : Code → State → Prop}
    (H : CheckSigs sigc K own g honest)
    (C : CheckCtx K g t1 t2 tm.spOffset s1 ret) (hS : Search Rem honest ret)
    (hw : HasLoop w t1 t2 tm.spOffset rest)
    (hl : ∀ T, (∀ v ∈ T, own v) → Rem (T ++ l))
    (hfin : ∀ t, Core K g t1 t2 s1 t → Found g own Rem ret honest t →
      CheckAt K own g t1 t2 tm s1 rest l ret Rem honest Fin rest t) {k k' : Code} {t t' : State}
    (h : CheckAt K own g t1 t2 tm s1 rest l ret Rem honest Fin k t)
    (hr : Interrupted sigc fits w k t k' t') :
    CheckAt K own g t1 t2 tm s1 rest l ret Rem honest Fin k' t' ∧
      (honest → KeepsReal g t.mem t'.mem) ∧ RestKept sigc K g t.mem t'.mem := by
  induction hr with
  | refl => exact ⟨h, fun _ => .refl _ _, .refl⟩
  | instr _ _ hg ih =>
    obtain ⟨i1, i2, i3⟩ := ih
    exact ⟨i1.go C hS hw hl hfin hg, fun hh => (i2 hh).trans (i1.real_go C hg).1, i3.go (i1.real_go C hg).2⟩
  | signal _ hs ih =>
    obtain ⟨i1, i2, i3⟩ := ih
    refine ⟨i1.signal H hs, fun hh => (i2 hh).trans ?_, i3.signal hs⟩
    obtain ⟨L, _, T, _, hL⟩ := i1.recorded hl hh
    exact H.real hh hs hL

/-! ## Whole snippets -/

theorem str_restored {F : W → Prop} (t1 t2 : Reg) (b1 b2 : Bool) (s : State) (h1 : t1 ≠ .rsp)
    (h2 : t2 ≠ .rsp) (h12 : t1 ≠ t2) (hF : Covers F (s.regs .rsp) (nsave b1 b2)) :
    ∃ s1, Str F (restoreCode t1 t2 b1 b2) s s1 ∧ AfterRestore t1 t2 b1 b2 s s1 := by
  obtain ⟨s1, h⟩ := str_restore (F := F) t1 t2 b1 b2 s h2 hF
  refine ⟨s1, h, ?_⟩
  obtain ⟨s1', hr, he⟩ := ends_restore [] [] t1 t2 b1 b2 s h1 h2 h12
  obtain ⟨n, hn⟩ := he _ (ends_nil [] s1')
  obtain ⟨m, hm⟩ := h.ends
  have := run_det hn hm
  injection this with this
  subst this; exact hr

/-- Saving, a core which keeps `K` and other registers, and restoring. -/
theorem restored_regs {K : W → Prop} {g : W} {t1 t2 : Reg} {b1 b2 : Bool} {s s1 s2 s3 : State}
    (hs : AfterSave t1 t2 b1 b2 s s1) (hc : Core K g t1 t2 s1 s2) (hr : AfterRestore t1 t2 b1 b2 s2 s3)
    (ht1 : t1 ≠ .rsp) (ht2 : t2 ≠ .rsp)
    (hK : Covers K (s.regs .rsp - BitVec.ofNat 64 (nsave b1 b2)) (nsave b1 b2)) :
    ∀ r, ¬ freeOf t1 t2 b1 b2 r → s3.regs r = s.regs r := by
  have hrsp2 : s2.regs .rsp = s.regs .rsp - BitVec.ofNat 64 (nsave b1 b2) := by
    rw [hc.regs _ ht1.symm ht2.symm, hs.rsp]
  intro r hf
  by_cases e0 : r = .rsp
  · subst e0; rw [hr.rsp, hrsp2, BitVec.sub_add_cancel]
  by_cases e1 : r = t1
  · subst e1
    cases b1 with
    | false => exact absurd (Or.inl ⟨rfl, rfl⟩) hf
    | true =>
      rw [hr.tmp1, if_pos rfl, hrsp2, BitVec.sub_add_cancel]
      rw [read64_eq _ _ _ (fun x hx => hc.mem x (hK x (inRange_sub hx (slot1_sub _ _)))), hs.slot1 rfl]
  by_cases e2 : r = t2
  · subst e2
    cases b2 with
    | false => exact absurd (Or.inr ⟨rfl, rfl⟩) hf
    | true =>
      rw [hr.tmp2, if_pos rfl, hrsp2]
      rw [read64_eq _ _ _ (fun x hx => hc.mem x (hK x (inRange_sub hx (slot2_sub _ _)))), hs.slot2 rfl]
  rw [hr.regs r e0 e1 e2, hc.regs r e1 e2, hs.regs r e0]

theorem Apart.relies {g R : W} {n : Nat} {s : State} (h : Apart g R n s) :
    ∀ x, Relies R (s.regs .rsp) n x → ¬ InRange x g regionSize := by
  rintro x (hx | hx)
  · exact sep_not_inRange h.ret hx
  · exact sep_not_inRange h.save hx

theorem restored_rest {sigc : Code → State → State → Prop} {R g : W} {t1 t2 : Reg} {b1 b2 : Bool}
    {s s1 s2 s3 t : State} (h : RestKept sigc (Relies R (s.regs .rsp) (nsave b1 b2)) g s.mem t.mem)
    (hs : AfterSave t1 t2 b1 b2 s s1) (hc : Core (Relies R (s.regs .rsp) (nsave b1 b2)) g t1 t2 s1 s2)
    (hr : AfterRestore t1 t2 b1 b2 s2 s3) (ha : AgreeOn (Relies R (s.regs .rsp) (nsave b1 b2)) s3 t) :
    RestKept sigc (fun x => InRange x (s.regs .rsp - BitVec.ofNat 64 (nsave b1 b2)) (nsave b1 b2)) g
      s.mem t.mem := by
  intro P hP x hx h1 h2
  by_cases hR : InRange x R 8
  · have hK : Relies R (s.regs .rsp) (nsave b1 b2) x := Or.inl hR
    rw [ha.mem x hK, hr.mem, hc.mem x hK, hs.mem x h1]
  · exact h P hP x hx (fun hk => hk.elim hR h1) h2

/-- An interrupted check. -/
theorem IsCheck.interrupted {code : Code} {d : Int} {n : Nat} {free : Reg → Prop}
    (hc : IsCheck code d n free) {g : W} {l : List W} {s : State} (h : Recorded g l s)
    (ha : Apart g (s.retAddr d) n s) {own : W → Prop} {Rem : List W → Prop} {honest : Prop}
    {sigc : Code → State → State → Prop} {fits : Code → State → Prop}
    (H : CheckSigs sigc (Relies (s.retAddr d) (s.regs .rsp) n) own g honest)
    (hS : Search Rem honest (s.mem.read64 (s.retAddr d)))
    (hl : ∀ T, (∀ v ∈ T, own v) → Rem (T ++ l)) {k : Code} {t : State}
    (hr : Interrupted sigc fits code code s k t) :
    (∀ k', k = .illegal :: k' → ¬ honest) ∧
    (k = [] → (∀ r, ¬ free r → t.regs r = s.regs r) ∧
      Found g own Rem (s.mem.read64 (s.retAddr d)) honest t ∧
      RestKept sigc (fun x => InRange x (s.regs .rsp - BitVec.ofNat 64 n) n) g s.mem t.mem) ∧
    (honest → KeepsReal g s.mem t.mem) ∧
    (honest → ∃ L, (Rem L ∨ ∃ x, Rem (x :: L)) ∧ ∃ T, (∀ v ∈ T, own v) ∧ Recorded g (T ++ L) t) := by
  obtain ⟨fl, sm, uo, bs, addr, mid, hf, hm, hok, hcode, rfl, rfl, rfl⟩ := hc
  obtain ⟨c1, tm, t1, t2, b1, b2, he, hs, hn, hfree⟩ := (chosen_pop hok).out
  have ecode : code = c1 ++ (validateRa t1 t2 tm ++ restoreCode t1 t2 b1 b2) := by
    simp [jitStackPop, hf.notEmpty, hm, stackPopWith, he, body, hs.tmp1, hs.tmp2, hf.notSave,
      hf.noFrame, hs.restore] at hcode
    rw [← hcode]
  rw [← hn] at ha H ⊢
  generalize hR : s.retAddr (popDisp mid) = R at *
  have hKs : Covers (Relies R (s.regs .rsp) (nsave b1 b2))
      (s.regs .rsp - BitVec.ofNat 64 (nsave b1 b2)) (nsave b1 b2) := fun x hx => Or.inr hx
  obtain ⟨s1, p1, a1⟩ := str_save t1 t2 b1 b2 s hs.rsp2 hKs
  have hR1 : s1.regs .rsp + BitVec.ofInt 64 tm.spOffset = R := by
    rw [a1.rsp, hs.off, ret_addr]; exact hR
  have hloop : HasLoop code t1 t2 tm.spOffset (restoreCode t1 t2 b1 b2) := by
    have := hasLoop (pre := c1) (post := restoreCode t1 t2 b1 b2) (sp := t1) (ra := t2) (t := tm) (by
      intro l i hi
      rw [hs.code] at hi; exact saveCode_binds _ _ _ _ l i hi)
    rw [ecode]; exact this
  have C : CheckCtx (Relies R (s.regs .rsp) (nsave b1 b2)) g t1 t2 tm.spOffset s1 (s.mem.read64 R) :=
    { ne := hs.ne, rsp1 := hs.rsp1, rsp2 := hs.rsp2
      cov := by rw [hR1]; exact fun x hx => Or.inl hx
      apart := ha.relies
      ret := by rw [hR1]; exact read64_of_sep a1.mem ha.ret_save }
  have at0 : CheckAt (Relies R (s.regs .rsp) (nsave b1 b2)) own g t1 t2 tm s1 (restoreCode t1 t2 b1 b2) l
      (s.mem.read64 R) Rem honest (fun u u3 => Core (Relies R (s.regs .rsp) (nsave b1 b2)) g t1 t2 s1 u ∧
        AfterRestore t1 t2 b1 b2 u u3) code s := by
    rw [ecode, hs.code]
    exact .save _ ⟨s, p1, ⟨rfl, rfl, rfl, fun _ _ => rfl⟩⟩ ⟨[], by simp, h⟩
  obtain ⟨this, hreal, hrest⟩ := at0.run H C hS hloop hl (fun u hu hfd => by
    obtain ⟨u3, h1, h2⟩ := str_restored (F := Relies R (s.regs .rsp) (nsave b1 b2)) t1 t2 b1 b2 u hs.rsp1
      hs.rsp2 hs.ne (by rw [hu.regs _ hs.rsp1.symm hs.rsp2.symm, a1.rsp]; exact hKs)
    exact .rest _ u u3 ⟨hu, h2⟩ ⟨u, h1, ⟨rfl, rfl, rfl, fun _ _ => rfl⟩⟩ hfd) hr
  clear at0 hr
  refine ⟨?_, ?_, hreal, this.recorded hl⟩
  · rintro k' rfl
    generalize hk : (Instr.illegal :: k') = k at this
    cases this with
    | save c h1 h2 =>
      cases c with
      | nil => simp [validateRa] at hk
      | cons i c =>
        simp only [List.cons_append, List.cons.injEq] at hk
        obtain ⟨rfl, _⟩ := hk
        exact h1.not_illegal.elim
    | dead h => exact h
    | rest c u u3 h1 h2 h3 => subst hk; exact h2.not_illegal.elim
    | _ => simp [loopCode] at hk
  · rintro rfl
    generalize hk : ([] : Code) = k at this
    cases this with
    | save c h1 h2 => simp [validateRa] at hk
    | dead h => cases hk
    | rest c u u3 h1 h2 h3 =>
      subst hk
      obtain ⟨u', hu, ha'⟩ := h2
      cases hu
      refine ⟨fun r hr => ?_, h3, restored_rest hrest a1 h1.1 h1.2 ha'⟩
      rw [ha'.regs]
      exact restored_regs a1 h1.1 h1.2 hs.rsp1 hs.rsp2 hKs r fun hx => hr (hfree r hx)
    | _ => simp [loopCode] at hk

/-! ## Interrupted pushes -/

/-- What is known of the signals during a push: before the pointer is moved they leave the region alone. -/
structure PushSigs (sigc : Code → State → State → Prop) (K own : W → Prop) (g : W) (honest : Prop) :
    Prop where
  same : ∀ {k a b}, sigc k a b → Same K a b
  adds : ∀ {k a b}, sigc k a b → Adds g own a b
  real : ∀ {k a b l}, honest → sigc k a b → Recorded g l a → KeepsReal g a.mem b.mem
  window : ∀ {k a b}, BeforePointer k → sigc k a b → Quiet g a b

/-- Where an interrupted push may be. -/
inductive PushAt (K own : W → Prop) (g : W) (t1 t2 : Reg) (tm : Temps) (s1 : State) (rest : Code)
    (l : List W) (ret : W) (Fin : State → State → Prop) : Code → State → Prop
  | save (c : Code) {t : State} : InPart K c s1 t →
      (∃ T, (∀ v ∈ T, own v) ∧ Recorded g (T ++ l) t) →
      PushAt K own g t1 t2 tm s1 rest l ret Fin (c ++ (saveRa t1 t2 tm ++ rest)) t
  | loadGs {t : State} : Core K g t1 t2 s1 t → t.flags = s1.flags → t.regs t2 = ret →
      (∃ T, (∀ v ∈ T, own v) ∧ Recorded g (T ++ l) t) →
      PushAt K own g t1 t2 tm s1 rest l ret Fin ((saveRa t1 t2 tm ++ rest).drop 1) t
  | store (A : List W) {t : State} : Core K g t1 t2 s1 t → t.flags = s1.flags → t.regs t2 = ret →
      (∀ v ∈ A, own v) → t.regs t1 = slotAt g (A ++ l).length →
      32 + 8 * (A ++ l).length + 8 ≤ regionSize →
      (∃ T, (∀ v ∈ T, own v) ∧ Recorded g (T ++ (A ++ l)) t) →
      PushAt K own g t1 t2 tm s1 rest l ret Fin ((saveRa t1 t2 tm ++ rest).drop 2) t
  | lea (A : List W) {t : State} : Core K g t1 t2 s1 t → t.flags = s1.flags → (∀ v ∈ A, own v) →
      t.regs t1 = slotAt g (A ++ l).length → 32 + 8 * (A ++ l).length + 8 ≤ regionSize →
      Slots g t.mem (ret :: (A ++ l)) → (∃ T, (∀ v ∈ T, own v ∨ v = ret) ∧ Recorded g (T ++ l) t) →
      PushAt K own g t1 t2 tm s1 rest l ret Fin ((saveRa t1 t2 tm ++ rest).drop 3) t
  | storeGs (A : List W) {t : State} : Core K g t1 t2 s1 t → t.flags = s1.flags → (∀ v ∈ A, own v) →
      t.regs t1 = slotAt g ((A ++ l).length + 1) → 32 + 8 * (A ++ l).length + 8 ≤ regionSize →
      Slots g t.mem (ret :: (A ++ l)) → (∃ T, (∀ v ∈ T, own v ∨ v = ret) ∧ Recorded g (T ++ l) t) →
      PushAt K own g t1 t2 tm s1 rest l ret Fin ((saveRa t1 t2 tm ++ rest).drop 4) t
  | rest (c : Code) (u u3 : State) {t : State} : Fin u u3 → InPart K c u3 t →
      (∃ T, (∀ v ∈ T, own v) ∧ ∃ A, (∀ v ∈ A, own v) ∧ Recorded g (T ++ ret :: (A ++ l)) t) →
      PushAt K own g t1 t2 tm s1 rest l ret Fin c t

theorem Slots.quiet {g ret : W} {L : List W} {t t' : State} (h : Slots g t.mem (ret :: L))
    (hr : 32 + 8 * L.length + 8 ≤ regionSize) (hq : Quiet g t t') : Slots g t'.mem (ret :: L) :=
  h.keep (by simp; omega) fun a _ h2 => region_read hq (by simp at h2; omega)

/-- What may follow the core of a push. -/
def Pops (rest : Code) : Prop := rest = [] ∨ ∃ r k, rest = .pop r :: k

theorem pops_restore (t1 t2 : Reg) (b1 b2 : Bool) : Pops (restoreCode t1 t2 b1 b2) := by
  cases b1 <;> cases b2 <;> simp [Pops, restoreCode]

theorem PushAt.signal {K own : W → Prop} {g : W} {t1 t2 : Reg} {tm : Temps} {s1 : State} {rest : Code}
    {l : List W} {ret : W} {honest : Prop} {Fin : State → State → Prop}
    {sigc : Code → State → State → Prop} (H : PushSigs sigc K own g honest) (hp : Pops rest) {k : Code}
    {t t' : State} (h : PushAt K own g t1 t2 tm s1 rest l ret Fin k t) (hs : sigc k t t') :
    PushAt K own g t1 t2 tm s1 rest l ret Fin k t' := by
  have S := H.same hs
  have A := H.adds hs
  cases h with
  | save c h1 h2 => exact .save c (h1.same S) (Recorded.same A h2)
  | loadGs h1 h2 h3 h4 =>
    exact .loadGs (h1.same S) (S.flags.trans h2) (by rw [S.regs]; exact h3) (Recorded.same A h4)
  | store B h1 h2 h3 h4 h5 h6 h7 =>
    exact .store B (h1.same S) (S.flags.trans h2) (by rw [S.regs]; exact h3) h4 (by rw [S.regs]; exact h5)
      h6 (Recorded.same A h7)
  | lea B h1 h2 h3 h4 h5 h6 h7 =>
    have q : Quiet g t t' := H.window (by simp [saveRa, BeforePointer]) hs
    obtain ⟨T, hT, hr⟩ := h7
    exact .lea B (h1.same S) (S.flags.trans h2) h3 (by rw [S.regs]; exact h4) h5 (h6.quiet h5 q)
      ⟨T, hT, hr.region S.gs q⟩
  | storeGs B h1 h2 h3 h4 h5 h6 h7 =>
    have q : Quiet g t t' := H.window (by
      rcases hp with rfl | ⟨r, k, rfl⟩ <;> simp [saveRa, BeforePointer]) hs
    obtain ⟨T, hT, hr⟩ := h7
    exact .storeGs B (h1.same S) (S.flags.trans h2) h3 (by rw [S.regs]; exact h4) h5 (h6.quiet h5 q)
      ⟨T, hT, hr.region S.gs q⟩
  | rest _ u u3 h1 h2 h3 =>
    obtain ⟨T, hT, B, hB, hr⟩ := h3
    obtain ⟨T', hT', hr'⟩ := Recorded.same A ⟨T, hT, hr⟩
    exact .rest _ u u3 h1 (h2.same S) ⟨T', hT', B, hB, hr'⟩

theorem slotAt_add (g : W) (n : Nat) : slotAt g n + 8 = slotAt g (n + 1) := by
  unfold slotAt
  rw [show 32 + 8 * (n + 1) = 32 + 8 * n + 8 by omega]
  generalize 32 + 8 * n = a
  rw [BitVec.ofNat_add, ← BitVec.add_assoc]; rfl

/-- A slot which is already in use, or the next one, is overwritten. -/
theorem Slots.overwrite {g : W} {m : Mem} (r : W) {B : List W} {x : W} :
    ∀ {T : List W}, Slots g m (T ++ x :: B) → 32 + 8 * (T ++ x :: B).length ≤ regionSize →
      Slots g (m.write64 (slotAt g B.length) r) (T ++ r :: B)
  | [], h, hr => ⟨read64_write64 _ _ _, h.2.above (Nat.le_refl _) (by simp at hr; omega)⟩
  | y :: T, h, hr => by
    refine ⟨?_, h.2.overwrite r (by simp at hr ⊢; omega)⟩
    have e : (T ++ r :: B).length = (T ++ x :: B).length := by simp
    show (m.write64 (slotAt g B.length) r).read64 (g + BitVec.ofNat 64 (32 + 8 * (T ++ r :: B).length)) = y
    rw [e]
    refine (read_write_slot g r m ?_ ?_ (Or.inr ?_)).trans h.1 <;> simp at hr ⊢ <;> omega

theorem Recorded.overwrite {g : W} {T B : List W} {t : State} (h : Recorded g (T ++ B) t) (r : W)
    (hr : 32 + 8 * B.length + 8 ≤ regionSize) :
    ∃ T', (∀ v ∈ T', v ∈ T ∨ v = r) ∧
      Recorded g (T' ++ B) { t with mem := t.mem.write64 (slotAt g B.length) r } := by
  have hp : ∀ n, t.mem.read64 g = slotAt g n → (t.mem.write64 (slotAt g B.length) r).read64 g = slotAt g n := by
    intro n e
    have := read_write_slot g r t.mem (a := 0) (b := 32 + 8 * B.length) (by decide) hr (Or.inl (by omega))
    rw [gs_zero] at this
    exact this.trans e
  rcases List.eq_nil_or_concat T with rfl | ⟨T0, x, rfl⟩
  · exact ⟨[], by simp, recorded_of h.gs (hp _ h.ptr) (h.slots.above (Nat.le_refl _) hr) h.room⟩
  · have hs : Slots g t.mem (T0 ++ x :: B) := by simpa using h.slots
    have hm : 32 + 8 * (T0 ++ x :: B).length ≤ regionSize := by simpa using h.room
    refine ⟨T0 ++ [r], fun v hv => ?_, recorded_of h.gs (hp _ ?_) (by simpa using hs.overwrite r hm) (by simpa using hm)⟩
    · simp only [List.mem_append, List.mem_singleton] at hv
      exact hv.imp (fun h => by simp [h]) id
    · simpa using h.ptr

/-- One instruction of an interrupted push. -/
theorem PushAt.go {K own : W → Prop} {g : W} {t1 t2 : Reg} {tm : Temps} {s1 : State} {rest w : Code}
    {l : List W} {ret : W} {Fin : State → State → Prop}
    (C : CheckCtx K g t1 t2 tm.spOffset s1 ret) 
    (hfin : ∀ t, Core K g t1 t2 s1 t → t.flags = s1.flags → ∃ u3, Fin t u3 ∧ Str K rest t u3)
    {k k' : Code} {t t' : State} (h : PushAt K own g t1 t2 tm s1 rest l ret Fin k t) (hf : RoomFor g k t)
    (hg : Go w k t k' t') :
    PushAt K own g t1 t2 tm s1 rest l ret Fin k' t' ∧
      (¬ GuardLike ret → KeepsReal g t.mem t'.mem) ∧ KeepsRest K g t.mem t'.mem := by
  have hz : regionSize = 8388608 := rfl
  cases h with
  | save c h1 h2 =>
    cases c with
    | nil =>
      obtain ⟨T, hT, hr⟩ := h2
      have core : Core K g t1 t2 s1 t ∧ t.flags = s1.flags := by
        obtain ⟨u, hu, ha⟩ := h1
        cases hu
        exact ⟨⟨hr.gs, fun r _ _ => by rw [ha.regs], ha.mem⟩, ha.flags⟩
      simp only [saveRa, List.nil_append, List.cons_append] at hg
      cases hg with
      | goto e _ => simp [exec] at e
      | next e =>
        simp only [exec, Step.next.injEq] at e
        subst e
        refine ⟨.loadGs core.1.set2 core.2 ?_ ⟨T, hT, hr.region rfl fun _ _ => rfl⟩, fun _ => .refl _ _, .refl _ _ _⟩
        rw [← C.ret]
        simp only [State.set, if_true, State.ea, core.1.regs _ C.rsp1.symm C.rsp2.symm]
        exact read64_eq _ _ _ fun x hx => core.1.mem x (C.cov x hx)
    | cons i c =>
      obtain ⟨rfl, h3, h4⟩ := h1.go (k := saveRa t1 t2 tm ++ rest) hg
      obtain ⟨T, hT, hr⟩ := h2
      exact ⟨.save c h3 ⟨T, hT, recorded_part C.apart (by rw [h3.gs, h1.gs]) h4 hr⟩,
        fun _ => .part C.apart h4, .part h4⟩
  | loadGs h1 h2 h3 h4 =>
    simp only [saveRa, List.cons_append, List.nil_append, List.drop_succ_cons, List.drop_zero] at hg hf
    obtain ⟨T, hT, hr⟩ := h4
    have hroom := hr.hasRoom.1 (hf _ _ rfl)
    cases hg with
    | goto e _ => simp [exec] at e
    | next e =>
      simp only [exec, Step.next.injEq] at e
      subst e
      have e1 : t.mem.read64 (t.gsa 0) = slotAt g (T ++ l).length := by
        rw [State.gsa, hr.gs]; simpa using hr.ptr
      rw [e1]
      exact ⟨.store T h1.set1 h2 (by simp [State.set, C.ne.symm, h3]) hT (by simp [State.set]) hroom
        ⟨[], by simp, hr.region rfl fun _ _ => rfl⟩, fun _ => .refl _ _, .refl _ _ _⟩
  | store A h1 h2 h3 h4 h5 h6 h7 =>
    simp only [saveRa, List.cons_append, List.nil_append, List.drop_succ_cons, List.drop_zero] at hg
    cases hg with
    | goto e _ => simp [exec] at e
    | next e =>
      simp only [exec, Step.next.injEq] at e
      subst e
      obtain ⟨T, hT, hr⟩ := h7
      have e1 : t.ea t1 0 = slotAt g (A ++ l).length := by simp [State.ea, h5]
      rw [e1, h3]
      refine ⟨.lea A (h1.write (by omega) C.apart) h2 h4 h5 h6
        ⟨read64_write64 _ _ _, hr.slots.tail.above (Nat.le_refl _) h6⟩ ?_, fun hv => .slot _ h6 hv, .write (by omega)⟩
      obtain ⟨T', hT', hr'⟩ := hr.overwrite ret h6
      refine ⟨T' ++ A, fun v hv => ?_, by rwa [List.append_assoc]⟩
      rcases List.mem_append.1 hv with hv | hv
      · exact (hT' v hv).imp (hT v) id
      · exact Or.inl (h4 v hv)
  | lea A h1 h2 h3 h4 h5 h6 h7 =>
    simp only [saveRa, List.cons_append, List.nil_append, List.drop_succ_cons, List.drop_zero] at hg
    cases hg with
    | goto e _ => simp [exec] at e
    | next e =>
      simp only [exec, Step.next.injEq] at e
      subst e
      obtain ⟨T, hT, hr⟩ := h7
      refine ⟨.storeGs A h1.set1 h2 h3 ?_ h5 h6 ⟨T, hT, hr.region rfl fun _ _ => rfl⟩, fun _ => .refl _ _, .refl _ _ _⟩
      rw [← slotAt_add, ← h4]
      simp [State.set, State.ea]
  | storeGs A h1 h2 h3 h4 h5 h6 _ =>
    simp only [saveRa, List.cons_append, List.nil_append, List.drop_succ_cons, List.drop_zero] at hg
    cases hg with
    | goto e _ => simp [exec] at e
    | next e =>
      simp only [exec, Step.next.injEq] at e
      subst e
      have e1 : t.gsa 0 = g := by rw [State.gsa, h1.gs]; simp
      rw [e1, h4]
      have hc := h1.write (a := 0) (v := slotAt g ((A ++ l).length + 1)) (by decide) C.apart
      rw [gs_zero] at hc
      obtain ⟨u3, hf3, hu⟩ := hfin _ hc h2
      refine ⟨.rest _ _ u3 hf3 ⟨_, hu, ⟨rfl, rfl, rfl, fun _ _ => rfl⟩⟩
        ⟨[], by simp, A, h3, recorded_of h1.gs (read64_write64 _ _ _) ?_ ?_⟩, fun _ => .ptr _ _ _, .ptr _ _ _ _⟩
      · exact Slots.ptr h6 (by simp at h5 ⊢; omega)
      · simp at h5 ⊢; omega
  | rest _ u u3 h1 h2 h3 =>
    cases k with
    | nil => exact absurd hg (go_nil _ _)
    | cons i c =>
      obtain ⟨rfl, h4, h5⟩ := h2.go (k := []) (by rw [List.append_nil]; exact hg)
      rw [List.append_nil]
      obtain ⟨T, hT, A, hA, hr⟩ := h3
      exact ⟨.rest _ u u3 h1 h4 ⟨T, hT, A, hA, recorded_part C.apart (by rw [h4.gs, h2.gs]) h5 hr⟩,
        fun _ => .part C.apart h5, .part h5⟩

theorem PushAt.run {K own : W → Prop} {g : W} {t1 t2 : Reg} {tm : Temps} {s1 : State} {rest w : Code}
    {l : List W} {ret : W} {honest : Prop} {Fin : State → State → Prop}
    {sigc : Code → State → State → Prop}
    (H : PushSigs sigc K own g honest) (hp : Pops rest) (hv : honest → ¬ GuardLike ret)
    (C : CheckCtx K g t1 t2 tm.spOffset s1 ret)
    (hfin : ∀ t, Core K g t1 t2 s1 t → t.flags = s1.flags → ∃ u3, Fin t u3 ∧ Str K rest t u3)
    {k k' : Code} {t t' : State} (h : PushAt K own g t1 t2 tm s1 rest l ret Fin k t)
    (hr : Interrupted sigc (RoomFor g) w k t k' t') :
    PushAt K own g t1 t2 tm s1 rest l ret Fin k' t' ∧ (honest → KeepsReal g t.mem t'.mem) ∧
      RestKept sigc K g t.mem t'.mem := by
  induction hr with
  | refl => exact ⟨h, fun _ => .refl _ _, .refl⟩
  | instr _ hf hg ih =>
    obtain ⟨i1, i2, i3⟩ := ih
    obtain ⟨j1, j2, j3⟩ := i1.go C hfin hf hg
    exact ⟨j1, fun hh => (i2 hh).trans (j2 (hv hh)), i3.go j3⟩
  | signal _ hs ih =>
    obtain ⟨i1, i2, i3⟩ := ih
    refine ⟨i1.signal H hp hs, fun hh => (i2 hh).trans ?_, i3.signal hs⟩
    cases i1 with
    | save c h1 h2 => obtain ⟨T, _, hr⟩ := h2; exact H.real hh hs hr
    | loadGs h1 h2 h3 h4 => obtain ⟨T, _, hr⟩ := h4; exact H.real hh hs hr
    | store A h1 h2 h3 h4 h5 h6 h7 => obtain ⟨T, _, hr⟩ := h7; exact H.real hh hs hr
    | lea => exact .region (H.window (by simp [saveRa, BeforePointer]) hs)
    | storeGs =>
      refine .region (H.window ?_ hs)
      rcases hp with rfl | ⟨r, k, rfl⟩ <;> simp [saveRa, BeforePointer]
    | rest _ u u3 h1 h2 h3 => obtain ⟨T, _, A, _, hr⟩ := h3; exact H.real hh hs hr

/-- The addresses which are recorded stay so, at every moment. -/
theorem PushAt.recorded {K own : W → Prop} {g : W} {t1 t2 : Reg} {tm : Temps} {s1 : State} {rest : Code}
    {l : List W} {ret : W} {Fin : State → State → Prop} {k : Code} {t : State}
    (h : PushAt K own g t1 t2 tm s1 rest l ret Fin k t) (ho : own ret) :
    ∃ T, (∀ v ∈ T, own v) ∧ Recorded g (T ++ l) t := by
  have mid : (∃ T, (∀ v ∈ T, own v ∨ v = ret) ∧ Recorded g (T ++ l) t) →
      ∃ T, (∀ v ∈ T, own v) ∧ Recorded g (T ++ l) t := by
    rintro ⟨T, hT, hr⟩
    exact ⟨T, fun v hv => (hT v hv).elim id fun e => e ▸ ho, hr⟩
  cases h with
  | save c h1 h2 => exact h2
  | loadGs h1 h2 h3 h4 => exact h4
  | store A h1 h2 h3 h4 h5 h6 h7 =>
    obtain ⟨T, hT, hr⟩ := h7
    refine ⟨T ++ A, fun v hv => ?_, by rwa [List.append_assoc]⟩
    rcases List.mem_append.1 hv with hv | hv
    · exact hT v hv
    · exact h4 v hv
  | lea A h1 h2 h3 h4 h5 h6 h7 => exact mid h7
  | storeGs A h1 h2 h3 h4 h5 h6 h7 => exact mid h7
  | rest c u u3 h1 h2 h3 =>
    obtain ⟨T, hT, A, hA, hr⟩ := h3
    refine ⟨T ++ ret :: A, fun v hv => ?_, by simpa using hr⟩
    simp only [List.mem_append, List.mem_cons] at hv
    rcases hv with hv | rfl | hv
    · exact hT v hv
    · exact ho
    · exact hA v hv

/-- An interrupted push. -/
theorem IsPush.interrupted {code : Code} {d : Int} {n : Nat} {free : Reg → Prop}
    (hc : IsPush code d n free) {g : W} {l : List W} {s : State} (h : Recorded g l s)
    (ha : Apart g (s.retAddr d) n s) {own : W → Prop} {honest : Prop}
    {sigc : Code → State → State → Prop}
    (H : PushSigs sigc (Relies (s.retAddr d) (s.regs .rsp) n) own g honest)
    (hv : honest → ¬ GuardLike (s.mem.read64 (s.retAddr d))) {k : Code} {t : State}
    (hr : Interrupted sigc (RoomFor g) code code s k t) :
    (∀ k', k ≠ .illegal :: k') ∧
    (k = [] → (∀ r, ¬ free r → t.regs r = s.regs r) ∧ t.flags = s.flags ∧
      ∃ T, (∀ v ∈ T, own v) ∧ ∃ A, (∀ v ∈ A, own v) ∧
        Recorded g (T ++ s.mem.read64 (s.retAddr d) :: (A ++ l)) t) ∧
    (k = [] → RestKept sigc (fun x => InRange x (s.regs .rsp - BitVec.ofNat 64 n) n) g s.mem t.mem) ∧
    (honest → KeepsReal g s.mem t.mem) ∧
    (own (s.mem.read64 (s.retAddr d)) → ∃ T, (∀ v ∈ T, own v) ∧ Recorded g (T ++ l) t) := by
  obtain ⟨fl, sm, uo, ht, uf, bs, ts, mid, hf, hm, hok, hcode, rfl, rfl, rfl⟩ := hc
  obtain ⟨c1, tm, t1, t2, b1, b2, he, hs, hn, hfree⟩ := (chosen_push hok ht).out
  have ecode : code = c1 ++ (saveRa t1 t2 tm ++ restoreCode t1 t2 b1 b2) := by
    simp [jitStackPush, hf.notEmpty, hm, stackPushWith, he, body, hs.tmp1, hs.tmp2, hf.notSave,
      hf.noFrame, hs.restore] at hcode
    rw [← hcode]
  rw [← hn] at ha H ⊢
  generalize hR : s.retAddr (pushDisp sm mid ht) = R at *
  have hKs : Covers (Relies R (s.regs .rsp) (nsave b1 b2))
      (s.regs .rsp - BitVec.ofNat 64 (nsave b1 b2)) (nsave b1 b2) := fun x hx => Or.inr hx
  obtain ⟨s1, p1, a1⟩ := str_save t1 t2 b1 b2 s hs.rsp2 hKs
  have hR1 : s1.regs .rsp + BitVec.ofInt 64 tm.spOffset = R := by
    rw [a1.rsp, hs.off, ret_addr]; exact hR
  have C : CheckCtx (Relies R (s.regs .rsp) (nsave b1 b2)) g t1 t2 tm.spOffset s1 (s.mem.read64 R) :=
    { ne := hs.ne, rsp1 := hs.rsp1, rsp2 := hs.rsp2
      cov := by rw [hR1]; exact fun x hx => Or.inl hx
      apart := ha.relies
      ret := by rw [hR1]; exact read64_of_sep a1.mem ha.ret_save }
  have at0 : PushAt (Relies R (s.regs .rsp) (nsave b1 b2)) own g t1 t2 tm s1 (restoreCode t1 t2 b1 b2) l
      (s.mem.read64 R) (fun u u3 => Core (Relies R (s.regs .rsp) (nsave b1 b2)) g t1 t2 s1 u ∧
        u.flags = s1.flags ∧ AfterRestore t1 t2 b1 b2 u u3) code s := by
    rw [ecode, hs.code]
    exact .save _ ⟨s, p1, ⟨rfl, rfl, rfl, fun _ _ => rfl⟩⟩ ⟨[], by simp, h⟩
  obtain ⟨this, hreal, hrest⟩ := at0.run H (pops_restore ..) hv C (fun u hu hfl => by
    obtain ⟨u3, h1, h2⟩ := str_restored (F := Relies R (s.regs .rsp) (nsave b1 b2)) t1 t2 b1 b2 u hs.rsp1
      hs.rsp2 hs.ne (by rw [hu.regs _ hs.rsp1.symm hs.rsp2.symm, a1.rsp]; exact hKs)
    exact ⟨u3, ⟨hu, hfl, h2⟩, h1⟩) hr
  clear at0 hr
  refine ⟨?_, ?_, ?_, hreal, this.recorded⟩
  · rintro k' rfl
    generalize hk : (Instr.illegal :: k') = k at this
    cases this with
    | save c h1 h2 =>
      cases c with
      | nil => simp [saveRa] at hk
      | cons i c =>
        simp only [List.cons_append, List.cons.injEq] at hk
        obtain ⟨rfl, _⟩ := hk
        exact h1.not_illegal.elim
    | rest c u u3 h1 h2 h3 => subst hk; exact h2.not_illegal.elim
    | _ => simp [saveRa] at hk
  · rintro rfl
    generalize hk : ([] : Code) = k at this
    cases this with
    | save c h1 h2 => simp [saveRa] at hk
    | rest c u u3 h1 h2 h3 =>
      subst hk
      obtain ⟨u', hu, ha'⟩ := h2
      cases hu
      obtain ⟨c1, c2, c3⟩ := h1
      refine ⟨fun r hr => ?_, ?_, h3⟩
      · rw [ha'.regs]
        exact restored_regs a1 c1 c3 hs.rsp1 hs.rsp2 hKs r fun hx => hr (hfree r hx)
      · rw [ha'.flags, c3.flags, c2, a1.flags]
    | _ => simp [saveRa] at hk
  · rintro rfl
    generalize hk : ([] : Code) = k at this
    cases this with
    | save c h1 h2 => simp [saveRa] at hk
    | rest c u u3 h1 h2 h3 =>
      subst hk
      obtain ⟨u', hu, ha'⟩ := h2
      cases hu
      exact restored_rest hrest a1 h1.1 h1.2.2 ha'
    | _ => simp [saveRa] at hk

end Verif
