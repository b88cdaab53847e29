import Verif.ByteTeam
import Verif.Props.ImageTeam

/-! # C119: the inserted bytes protect whole programs with several threads -/

namespace Verif

variable {m : ProgSem} {frame : Func → Reg} {snip : Func → Ev → Code → State → W → Prop} {avx : Bool}
  {text : W → Byte} {g : Nat → W}

/-! ## One snippet -/

/-- A program which consists of one snippet, and its text. -/
def lone (w : Code) : Guest Bool Unit := ⟨fun _ _ _ _ _ => False, fun k => if k then none else some (w, true)⟩
def loneText (avx : Bool) (text : W → Byte) (a : W) (n : Nat) : Image Bool :=
  ⟨avx, text, fun k => if k then none else some (a, n, true)⟩

/-- `rip` is `x` in the `n` bytes of the snippet `w` at `a`, and `k` is left of it. -/
def RipAt (avx : Bool) (text : W → Byte) (a : W) (n : Nat) (x : W) (w k : Code) : Prop :=
  (loneText avx text a n).Undefined (lone w) ∧ Seated (loneText avx text a n) (lone w) false x w k true

theorem RipAt.begin {a : W} {n : Nat} {w : Code} (h : Inserted text w a n)
    (hu : avx = true → .illegal ∈ w →
      atByte w (fun i => text (a + BitVec.ofNat 64 n + BitVec.ofNat 64 i)) = some .undefined) :
    RipAt avx text a n a w w := by
  obtain ⟨bs, h1, h2, rfl, h4⟩ := h
  refine ⟨?_, ?_⟩
  · intro k c k' a' n' k'' hk hi ha hc
    cases k with
    | true => cases hk
    | false => cases hk; cases hi; exact hu ha hc
  · obtain ⟨a', n', h5, h6⟩ := Seated.begin (I := loneText avx text a bs.length) (P := lone w) (k := false)
      (k' := true) (c := w) ⟨fun k hk => (by cases k <;> first | rfl | cases hk),
        fun k c k' hk => (by cases k <;> cases hk; exact ⟨a, bs, h1, h2, h4, rfl⟩)⟩ rfl
    cases h5
    exact h6

theorem RipAt.skip {a x : W} {n : Nat} {w k k' : Code} (hk : Skips k k') (h : RipAt avx text a n x w k) :
    RipAt avx text a n x w k' := by
  induction hk with
  | refl => exact h
  | bind _ ih =>
    obtain ⟨hu, hs, hr, hj, a', n', final, pos, hi, hn, hx, hw, hp⟩ := h
    cases hp with
    | plain _ _ h3 _ => cases h3
    | bind h1 h2 => exact ih ⟨hu, hs, (List.suffix_cons ..).trans hr, hj, a', n', final, pos, hi, hn, hx, hw, h2⟩

/-- What the processor does next, and the list of instructions. -/
theorem RipAt.back {a x : W} {n : Nat} {w k : Code} (h : RipAt avx text a n x w k) (s : State) :
    n < 2 ^ 64 ∧ ((x = a + BitVec.ofNat 64 n ∧ Skips k []) ∨
      (Inside a n x ∧ ∃ i k1, Skips k (i :: k1) ∧
        ((i = .illegal ∧ executeAt avx text x s = .sigill s) ∨
          ∃ x' s' k', Go w (i :: k1) s k' s' ∧ executeAt avx text x s = .next x' s' ∧ RipAt avx text a n x' w k'))) := by
  obtain ⟨hu, h⟩ := h
  obtain ⟨a', n', h1, h2, h3⟩ := h.back s
  cases h1
  refine ⟨h2, h3.imp id fun ⟨h4, i, k1, _, h5, h6, h7⟩ => ⟨h4, i, k1, h5, ?_⟩⟩
  rcases h7 with rfl | ⟨x', s', k', h7, h8, h9⟩
  · obtain ⟨_, _, _, _, h10⟩ := h6.trap hu (s := s) (s' := s) rfl
    exact .inl ⟨rfl, h10⟩
  · exact .inr ⟨x', s', k', h7, h8, hu, h9⟩

theorem inside_end {a : W} {n : Nat} (hn : n < 2 ^ 64) : ¬ Inside a n (a + BitVec.ofNat 64 n) := by
  rintro ⟨p, hp, h⟩
  have : BitVec.ofNat 64 n = BitVec.ofNat 64 p := by
    have := congrArg (fun z => z - a) h
    simpa [BitVec.add_comm a, BitVec.add_sub_cancel] using this
  have := congrArg BitVec.toNat this
  simp only [BitVec.toNat_ofNat] at this
  rw [Nat.mod_eq_of_lt hn, Nat.mod_eq_of_lt (by omega)] at this
  omega

theorem RipAt.rip {a x : W} {n : Nat} {w k : Code} (h : RipAt avx text a n x w k) :
    Inside a n x ∨ x = a + BitVec.ofNat 64 n := by
  obtain ⟨_, _, _, _, a', n', _, pos, hi, _, rfl, _, hp⟩ := h
  cases hi
  have := hp.le
  by_cases hn : pos = n
  · exact .inr (by rw [hn])
  · exact .inl ⟨pos, by omega, rfl⟩

/-! ## The same moment -/

/-- The same registers, flags and gs base. -/
def SameCpu (s t : State) : Prop := ∀ mem, s.over mem = t.over mem

theorem SameCpu.refl (s : State) : SameCpu s s := fun _ => rfl

theorem SameCpu.over (s t : State) (h : SameCpu s t) (mem : Mem) : SameCpu s (t.over mem) := fun m' => h m'

/-- What a thread is doing in memory, and with lists of instructions. -/
inductive TaskRel (avx : Bool) (text : W → Byte) : Task → Worker → Prop
  | own {s t : State} {acts : List XAct} : SameCpu s t → TaskRel avx text (.own s acts) (.own t acts)
  | busy {b : W} {n : Nat} {x : W} {ev : Ev} {s0 s t : State} {a : XAct} {as : List XAct} {w k : Code} :
      SameCpu s t → RipAt avx text b n x w k →
      TaskRel avx text (.busy b n x ev s0 s a as) (.busy w k ev s0 t a as)

theorem TaskRel.acts {p : Task} {w : Worker} (h : TaskRel avx text p w) : p.acts = w.acts := by cases h <;> rfl

theorem TaskRel.needs {p : Task} {w : Worker} (h : TaskRel avx text p w) (g x : W) : p.needs g x = Needs g w x := by
  cases h <;> rfl

theorem TaskRel.base {p : Task} {w : Worker} (h : TaskRel avx text p w) (mem : Mem) : p.base mem = w.base mem := by
  cases h with
  | own h => exact h mem
  | busy => rfl

/-- The threads of a process in memory, and of one with lists of instructions. -/
def TasksRel (avx : Bool) (text : W → Byte) (T : Nat → Option Task) (U : Team) : Prop :=
  ∀ i, (T i = none ∧ U i = none) ∨ ∃ p w, T i = some p ∧ U i = some w ∧ TaskRel avx text p w

theorem TasksRel.get {T : Nat → Option Task} {U : Team} (h : TasksRel avx text T U) {i : Nat} {p : Task}
    (hi : T i = some p) : ∃ w, U i = some w ∧ TaskRel avx text p w := by
  rcases h i with ⟨h1, _⟩ | ⟨p', w, h1, h2, h3⟩
  · rw [hi] at h1; cases h1
  · rw [hi] at h1; cases h1; exact ⟨w, h2, h3⟩

theorem TasksRel.put {T : Nat → Option Task} {U : Team} (h : TasksRel avx text T U) {i : Nat} {p : Task} {w : Worker}
    (hp : TaskRel avx text p w) : TasksRel avx text (setAt T i (some p)) (setAt U i (some w)) := by
  intro j
  by_cases hj : j = i
  · exact .inr ⟨p, w, by simp [setAt, hj], by simp [setAt, hj], hp⟩
  · simpa [setAt, hj] using h j

theorem TasksRel.drop {T : Nat → Option Task} {U : Team} (h : TasksRel avx text T U) {i : Nat} :
    TasksRel avx text (setAt T i none) (setAt U i none) := by
  intro j
  by_cases hj : j = i
  · exact .inl ⟨by simp [setAt, hj], by simp [setAt, hj]⟩
  · simpa [setAt, hj] using h j

theorem TasksRel.others {T : Nat → Option Task} {U : Team} (h : TasksRel avx text T U) {i : Nat} {mem mem' : Mem}
    (ho : Task.Others g T i mem mem') : Others Needs g U i mem mem' := by
  intro j w hj hw x hx
  rcases h j with ⟨_, h2⟩ | ⟨p, w', h1, h2, h3⟩
  · rw [hw] at h2; cases h2
  · rw [hw] at h2; cases h2
    exact ho j p hj h1 x (by rw [h3.needs]; exact hx)

theorem others_refl {T : Team} {i : Nat} {mem : Mem} : Others Needs g T i mem mem := fun _ _ _ _ _ _ => rfl

/-! ## Steps -/

theorem EStep.mono {h : W} {p q : XProc} (e : EStep m frame (fun _ _ _ _ _ => False) h p q) : EStep m frame snip h p q := by
  cases e with
  | work h1 h2 => exact .work h1 h2
  | block h1 => exact .block h1
  | call p h1 h2 h3 => exact .call p h1 h2 h3
  | snippet _ h => exact h.elim
  | accept _ h => exact h.elim
  | trap _ h => exact h.elim
  | ret h1 h2 => exact .ret h1 h2
  | hijack h1 h2 h3 => exact .hijack h1 h2 h3
  | tail h1 h2 => exact .tail h1 h2

theorem threadStep_mono {h : W} {p q : XProc} (e : threadStep m frame (fun _ _ _ _ _ => False) h p q) :
    threadStep m frame snip h p q := by
  cases e with
  | step e => exact .step e.mono
  | unwind h1 h2 h3 => exact .unwind h1 h2 h3

theorem trail_teamRun {mem0 : Mem} {p : TeamProc} {ps : List TeamProc}
    (h : Trail (TeamStep m frame snip Needs g) (.run mem0 fun _ => none) (p :: ps)) :
    TeamRun m frame snip Needs g p := by
  generalize hq : p :: ps = qs at h
  induction h generalizing p ps with
  | start => cases hq; exact .init _
  | step _ hs ih => cases hq; exact .step (ih rfl) hs

/-- Over labels. -/
theorem skip_trail {mem0 mem : Mem} {U : Team} {qs : List TeamProc} {i : Nat} {w k k' : Code} {ev : Ev} {s0 t : State}
    {a : XAct} {as : List XAct} (hk : Skips k k')
    (h : Trail (TeamStep m frame snip Needs g) (.run mem0 fun _ => none) (.run mem U :: qs))
    (hi : U i = some (.busy w k ev s0 t a as)) : ∃ t' qs', SameCpu t t' ∧
      Trail (TeamStep m frame snip Needs g) (.run mem0 fun _ => none)
        (.run mem (setAt U i (some (.busy w k' ev s0 t' a as))) :: qs') ∧
      ∀ j v, TeamLost m (.run mem (setAt U i (some (.busy w k' ev s0 t' a as))) :: qs') j v →
        TeamLost m (.run mem U :: qs) j v := by
  induction hk generalizing U qs t with
  | @refl k =>
    have : setAt U i (some (.busy w k ev s0 t a as)) = U := by
      funext j
      by_cases hj : j = i
      · simp [setAt, hj, hi]
      · simp [setAt, hj]
    exact ⟨t, qs, .refl _, by rw [this]; exact h, fun j v => by rw [this]; exact id⟩
  | @bind l k k' _ ih =>
    have hg : Go w (.bind l :: k) (t.over mem) k (t.over mem) := .next rfl
    have hs := TeamStep.instr (m := m) (frame := frame) (snip := snip) hi hg (others_refl (g := g))
    obtain ⟨t', qs', h1, h2, h3⟩ := ih (.step h hs) (U := setAt U i (some (.busy w k ev s0 (t.over mem) a as)))
      (t := t.over mem) (by simp [setAt])
    have he : ∀ p : Worker, setAt (setAt U i (some (.busy w k ev s0 (t.over mem) a as))) i (some p) = setAt U i (some p) := by
      intro p
      funext j
      by_cases hj : j = i <;> simp [setAt, hj]
    rw [he] at h2 h3
    refine ⟨t', qs', fun m' => h1 m', h2, fun j v hl => ?_⟩
    rcases h3 j v hl with h4 | h4
    · obtain ⟨_, _, _, _, p, p', up, e1, e2, e3, e4, e5, x, hx, _⟩ := h4
      cases e1; cases e2
      exfalso
      by_cases hj : j = i
      · subst hj
        rw [hi] at e3
        simp only [setAt, if_true] at e4
        cases e3; cases e4
        have := congrArg List.length e5
        simp [Worker.acts] at this
        subst this
        cases hx
      · simp only [setAt, hj, if_false] at e4
        rw [e3] at e4; cases e4
        have := congrArg List.length e5
        simp at this
        subst this
        cases hx
    · exact h4

/-- A step in memory is one of the list, if labels are skipped before. -/
theorem byte_sim (hu : ByteUndefined snip avx text) {mem0 mem : Mem} {T : Nat → Option Task} {U : Team} {p' : ByteProc}
    {qs : List TeamProc} (hr : TasksRel avx text T U)
    (h : Trail (TeamStep m frame snip Needs g) (.run mem0 fun _ => none) (.run mem U :: qs))
    (hs : ByteStep m frame snip avx text g (.run mem T) p') :
    ∃ U1 qs1, TasksRel avx text T U1 ∧
      Trail (TeamStep m frame snip Needs g) (.run mem0 fun _ => none) (.run mem U1 :: qs1) ∧
      (∀ j v, TeamLost m (.run mem U1 :: qs1) j v → TeamLost m (.run mem U :: qs) j v) ∧
      ((∃ mem' T' U', p' = .run mem' T' ∧ TasksRel avx text T' U' ∧
          TeamStep m frame snip Needs g (.run mem U1) (.run mem' U')) ∨
        ∃ i q, p' = .stopped i q ∧ TeamStep m frame snip Needs g (.run mem U1) (.stopped i q)) := by
  have over : ∀ {i b n x ev s0 s a as k'} {w k : Code} {t : State}, T i = some (.busy b n x ev s0 s a as) →
      U i = some (.busy w k ev s0 t a as) → SameCpu s t → RipAt avx text b n x w k → Skips k k' →
      ∃ U1 qs1 t', TasksRel avx text T U1 ∧
        Trail (TeamStep m frame snip Needs g) (.run mem0 fun _ => none) (.run mem U1 :: qs1) ∧
        (∀ j v, TeamLost m (.run mem U1 :: qs1) j v → TeamLost m (.run mem U :: qs) j v) ∧
        SameCpu s t' ∧ U1 i = some (.busy w k' ev s0 t' a as) := by
    intro i b n x ev s0 s a as k' w k t hT hU hc hk hsk
    obtain ⟨t', qs', h1, h2, h3⟩ := skip_trail hsk h hU
    have hc' : SameCpu s t' := fun m' => (hc m').trans (h1 m')
    refine ⟨_, qs', t', ?_, h2, h3, hc', by simp [setAt]⟩
    have := hr.put (i := i) (TaskRel.busy (b := b) (n := n) (ev := ev) (s0 := s0) (a := a) (as := as) hc' (hk.skip hsk))
    rwa [show setAt T i (some (.busy b n x ev s0 s a as)) = T by
      funext j
      by_cases hj : j = i
      · simp [setAt, hj, hT]
      · simp [setAt, hj]] at this
  cases hs with
  | own hT ht ho =>
    obtain ⟨w, hU, hw⟩ := hr.get hT
    cases hw with
    | own hc =>
      rw [hc mem] at ht
      exact ⟨U, qs, hr, h, fun _ _ => id, .inl ⟨_, _, _, rfl, hr.put (.own (.refl _)), .own hU (threadStep_mono ht) (hr.others ho)⟩⟩
  | stop hT ht hq =>
    obtain ⟨w, hU, hw⟩ := hr.get hT
    cases hw with
    | own hc =>
      rw [hc mem] at ht
      exact ⟨U, qs, hr, h, fun _ _ => id, .inr ⟨_, _, rfl, .stop hU (threadStep_mono ht) hq⟩⟩
  | begin hT h1 h2 h3 h4 h5 =>
    obtain ⟨w, hU, hw⟩ := hr.get hT
    cases hw with
    | own hc =>
      have hb := RipAt.begin h3 fun ha hi => hu ha _ _ _ _ _ _ _ h2 h3 hi
      rw [hc mem] at h2 h4 h5 ⊢
      exact ⟨U, qs, hr, h, fun _ _ => id, .inl ⟨_, _, _, rfl, hr.put (.busy hc hb), .begin hU h1 h2 h4 h5⟩⟩
  | instr hT h1 h2 h3 h4 =>
    obtain ⟨w, hU, hw⟩ := hr.get hT
    cases hw with
    | busy hc hk =>
      obtain ⟨hn, ⟨rfl, _⟩ | ⟨_, i, k1, h5, ⟨_, h6⟩ | ⟨x1, s1, k', h6, h7, h8⟩⟩⟩ := hk.back (State.over _ mem)
      · exact absurd h1 (inside_end hn)
      · rw [h6] at h2; cases h2
      rw [h7] at h2; cases h2
      obtain ⟨U1, qs1, t', k1, k2, k3, k4, k5⟩ := over hT hU hc hk h5
      rw [k4 mem] at h6
      exact ⟨U1, qs1, k1, k2, k3, .inl ⟨_, _, _, rfl, k1.put (.busy (.refl _) h8), .instr k5 h6 (k1.others h4)⟩⟩
  | @finish _ _ _ _ _ _ _ s _ _ hT h1 =>
    obtain ⟨w, hU, hw⟩ := hr.get hT
    cases hw with
    | busy hc hk =>
      obtain ⟨hn, ⟨_, h5⟩ | ⟨h5, _⟩⟩ := hk.back s
      · obtain ⟨U1, qs1, t', k1, k2, k3, k4, k5⟩ := over hT hU hc hk h5
        exact ⟨U1, qs1, k1, k2, k3, .inl ⟨_, _, _, rfl, k1.put (.own k4), .finish k5 h1⟩⟩
      · exact absurd h5 (inside_end hn)
  | @accept _ _ _ _ _ _ s _ _ hT h1 =>
    obtain ⟨w, hU, hw⟩ := hr.get hT
    cases hw with
    | busy hc hk =>
      obtain ⟨hn, ⟨_, h5⟩ | ⟨h5, _⟩⟩ := hk.back s
      · obtain ⟨U1, qs1, t', k1, k2, k3, k4, k5⟩ := over hT hU hc hk h5
        exact ⟨U1, qs1, k1, k2, k3, .inr ⟨_, _, rfl, .accept k5 h1⟩⟩
      · exact absurd h5 (inside_end hn)
  | sigill hT h1 h2 =>
    obtain ⟨w, hU, hw⟩ := hr.get hT
    cases hw with
    | busy hc hk =>
      obtain ⟨hn, ⟨rfl, _⟩ | ⟨_, i, k1, h5, ⟨rfl, h6⟩ | ⟨x1, s1, k', h6, h7, h8⟩⟩⟩ := hk.back (State.over _ mem)
      · exact absurd h1 (inside_end hn)
      · obtain ⟨U1, qs1, t', k1, k2, k3, k4, k5⟩ := over hT hU hc hk h5
        exact ⟨U1, qs1, k1, k2, k3, .inr ⟨_, _, rfl, .trap k5 rfl⟩⟩
      · rw [h7] at h2; cases h2
  | astray hT h1 h2 h3 h4 =>
    obtain ⟨w, hU, hw⟩ := hr.get hT
    cases hw with
    | busy hc hk =>
      obtain ⟨hn, ⟨rfl, _⟩ | ⟨_, i, k1, h5, ⟨rfl, h6⟩ | ⟨x1, s1, k', h6, h7, h8⟩⟩⟩ := hk.back (State.over _ mem)
      · exact absurd h1 (inside_end hn)
      · rw [h6] at h2; cases h2
      · rw [h7] at h2; cases h2
        exact (h8.rip.elim h3 h4).elim
  | unknown hT h1 h2 =>
    obtain ⟨w, hU, hw⟩ := hr.get hT
    cases hw with
    | busy hc hk =>
      obtain ⟨hn, ⟨rfl, _⟩ | ⟨_, i, k1, h5, ⟨rfl, h6⟩ | ⟨x1, s1, k', h6, h7, h8⟩⟩⟩ := hk.back (State.over _ mem)
      · exact absurd h1 (inside_end hn)
      · rw [h6] at h2; cases h2
      · rw [h7] at h2; cases h2
  | @spawn _ _ i _ f p hT h1 h2 =>
    have hU : U i = none := by
      rcases hr i with ⟨_, h⟩ | ⟨_, _, h, _⟩
      · exact h
      · rw [hT] at h; cases h
    exact ⟨U, qs, hr, h, fun _ _ => id, .inl ⟨_, _, _, rfl, hr.put (.own (.refl _)), .spawn f p hU h1 (hr.others h2)⟩⟩
  | exit hT =>
    obtain ⟨w, hU, hw⟩ := hr.get hT
    cases hw with
    | own hc => exact ⟨U, qs, hr, h, fun _ _ => id, .inl ⟨_, _, _, rfl, hr.drop, .exit hU⟩⟩

/-- An execution in memory is one of the lists, if labels are skipped. -/
theorem byte_trail (hu : ByteUndefined snip avx text) {mem0 : Mem} {p : ByteProc} {ps : List ByteProc}
    (h : Trail (ByteStep m frame snip avx text g) (.run mem0 fun _ => none) (p :: ps)) :
    (∃ mem T U qs, p = .run mem T ∧ TasksRel avx text T U ∧
      Trail (TeamStep m frame snip Needs g) (.run mem0 fun _ => none) (.run mem U :: qs) ∧
      ∀ j v, TeamLost m (.run mem U :: qs) j v → ByteLost m (p :: ps) j v) ∨
    ∃ i q qs, p = .stopped i q ∧
      Trail (TeamStep m frame snip Needs g) (.run mem0 fun _ => none) (.stopped i q :: qs) := by
  generalize hq : p :: ps = l at h
  induction h generalizing p ps with
  | start =>
    cases hq
    exact .inl ⟨mem0, _, fun _ => none, [], rfl, fun _ => .inl ⟨rfl, rfl⟩, .start, fun _ _ h => h⟩
  | step _ hs ih =>
    cases hq
    rcases ih rfl with ⟨mem, T, U, qs, rfl, hr, ht, hl⟩ | ⟨i, q, qs, rfl, _⟩
    · obtain ⟨U1, qs1, k1, k2, k3, ⟨mem', T', U', rfl, k4, k5⟩ | ⟨i, q, rfl, k5⟩⟩ := byte_sim hu hr ht hs
      · refine .inl ⟨mem', T', U', _, rfl, k4, .step k2 k5, fun j v h => ?_⟩
        rcases h with h | h
        · obtain ⟨_, _, _, _, w, w', up, e1, e2, e3, e4, e5, e6⟩ := h
          cases e1; cases e2
          obtain h | ⟨p, w1, h1, h2, h3⟩ := k1 j
          · rw [h.2] at e3; cases e3
          obtain h | ⟨p', w1', h1', h2', h3'⟩ := k4 j
          · rw [h.2] at e4; cases e4
          rw [e3] at h2; cases h2
          rw [e4] at h2'; cases h2'
          exact .inl ⟨_, _, _, _, p, p', up, rfl, rfl, h1, h1', by rw [h3.acts, h3'.acts, e5], e6⟩
        · exact .inr (hl j v (k3 j v h))
      · exact .inr ⟨i, q, _, rfl, .step k2 k5⟩
    · cases hs

/-- **C119.** If the program is protected when it is executed with lists of instructions, it is protected when it
is executed from memory, instruction by instruction. -/
theorem C119_bytes (hu : ByteUndefined snip avx text) (hp : TeamProtected m frame snip Needs g) :
    ByteProtected m frame snip avx text g where
  recorded mem0 mem T ps i s a as h hT hd := by
    rcases byte_trail hu h with ⟨_, _, U, qs, e, hr, ht, _⟩ | ⟨_, _, _, e, _⟩
    · cases e
      obtain ⟨w, hU, hw⟩ := hr.get hT
      cases hw with
      | own hc =>
        obtain ⟨l, h1, h2⟩ := hp.recorded _ _ _ _ _ _ (trail_teamRun ht) hU hd
        rw [← hc mem] at h1
        refine ⟨l, h1, fun x hx hs => ?_⟩
        exact (h2 x hx hs).imp id fun ⟨h3, h4⟩ => ⟨h3, (congrFun (congrArg State.regs (hc mem)) _).trans h4⟩
    · cases e
  unchecked mem0 ps i v h := by
    rcases byte_trail hu h with ⟨_, _, U, qs, e, hr, ht, _⟩ | ⟨_, _, _, e, ht⟩
    · cases e
    · cases e
      exact hp.unchecked i v (trail_teamRun ht)
  accepted mem0 mem T ps i v h hs := by
    rcases byte_trail hu h with ⟨_, _, U, qs, e, hr, ht, hl⟩ | ⟨_, _, _, e, _⟩
    · cases e
      obtain ⟨U1, qs1, k1, k2, k3, ⟨_, _, _, e, _⟩ | ⟨_, _, e, k5⟩⟩ := byte_sim hu hr ht hs
      · cases e
      cases e
      rcases hp.accepted _ _ _ _ _ _ k2 k5 with h1 | ⟨w, h1, h2⟩ | h1
      · exact .inl h1
      · obtain h | ⟨p, w1, h3, h4, h5⟩ := k1 i
        · rw [h.2] at h1; cases h1
        rw [h1] at h4; cases h4
        exact .inr (.inl ⟨p, h3, by rw [h5.acts]; exact h2⟩)
      · exact .inr (.inr (hl i v (k3 i v h1)))
    · cases e
  quiet mem0 mem T ps i w a as l h hT ha hra hl hg hs := by
    rcases byte_trail hu h with ⟨_, _, U, qs, e, hr, ht, _⟩ | ⟨_, _, _, e, _⟩
    · cases e
      obtain ⟨U1, qs1, k1, k2, k3, ⟨_, _, _, e, _⟩ | ⟨_, _, e, k5⟩⟩ := byte_sim hu hr ht hs
      · cases e
      cases e
      obtain ⟨w', hU, hw⟩ := k1.get hT
      exact hp.quiet _ _ _ _ _ _ l (trail_teamRun k2) hU (hw.acts ▸ ha) (hw.base mem ▸ hra) (hw.base mem ▸ hl) hg k5
    · cases e
  rip mem0 mem T ps i b n x ev s0 s a as h hT := by
    rcases byte_trail hu h with ⟨_, _, U, qs, e, hr, ht, _⟩ | ⟨_, _, _, e, _⟩
    · cases e
      obtain ⟨w', hU, hw⟩ := hr.get hT
      cases hw with
      | busy _ hk => exact hk.rip
    · cases e
  within mem0 ps i h := by
    rcases byte_trail hu h with ⟨_, _, U, qs, e, _⟩ | ⟨_, _, _, e, _⟩ <;> cases e

end Verif
