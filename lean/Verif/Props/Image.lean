import Verif.Image
import Verif.Props.Refine
import Verif.Props.MachineCode

/-! # C117: instrumented programs in memory do what the originals do -/

namespace Verif

variable {κ L : Type} {P : Guest κ L} {I : Image κ} {D : Blind κ} {k0 : κ} {s0 : State}

theorem Ticks.trans {d0 d d' : Doing κ} {tr ls : List L} (h : Ticks P I d0 tr d) (h' : Ticks P I d ls d') :
    Ticks P I d0 (tr ++ ls) d' := by
  induction h' with
  | start => rw [List.append_nil]; exact h
  | step _ h2 ih => rw [← List.append_assoc]; exact ih.step h2

theorem Ticks.silent {d0 d d' : Doing κ} {tr : List L} (h : Ticks P I d0 tr d) (h' : Ticks P I d [] d') :
    Ticks P I d0 tr d' := by
  have := h.trans h'
  rwa [List.append_nil] at this

theorem Tick.ticks {d d' : Doing κ} {ls : List L} (h : Tick P I d ls d') : Ticks P I d ls d' := by
  have := Ticks.start.step h
  rwa [List.nil_append] at this

theorem not_inside_end {a : W} {n : Nat} (h : n < 2 ^ 64) : ¬ Inside a n (a + BitVec.ofNat 64 n) := by
  rintro ⟨p, hp, e⟩
  have : BitVec.ofNat 64 n = BitVec.ofNat 64 p := by
    have := congrArg (· - a) e
    simpa [BitVec.add_comm a] using this
  have := congrArg BitVec.toNat this
  simp only [BitVec.toNat_ofNat] at this
  omega

theorem executeAt_sigill {avx : Bool} {text : W → Byte} {x : W} {s s' : State}
    (h : executeAt avx text x s = .sigill s') : s' = s := by
  unfold executeAt at h
  split at h
  · split at h <;> cases h
  · cases h
  · cases h
  · cases h
  · split at h
    · split at h
      · cases h; rfl
      · cases h
      · cases h
    · cases h; rfl
  · cases h

/-- In the inserted bytes the processor has no choice. -/
theorem Tick.det (hI : I.Of P) {k : κ} {x : W} {s : State} {l1 l2 : List L} {d1 d2 : Doing κ}
    (h1 : Tick P I (.inside k x s) l1 d1) (h2 : Tick P I (.inside k x s) l2 d2) : d1 = d2 := by
  have len : ∀ {a n k'}, I.site k = some (a, n, k') → n < 2 ^ 64 := by
    intro a n k' e
    cases hp : P.site k with
    | none => rw [hI.none k hp] at e; cases e
    | some y =>
      obtain ⟨a', bs, _, _, h, e'⟩ := hI.some k y.1 y.2 hp
      rw [e] at e'
      obtain ⟨_, rfl, _⟩ : a = a' ∧ n = bs.length ∧ k' = y.2 := by simpa using e'
      exact h
  generalize hd : Doing.inside k x s = d at h2
  cases h1 with
  | @next _ k1 _ s1 a _ x1 n e i ex =>
    cases h2 with
    | own | enter => cases hd
    | next e' i' ex' => cases hd; rw [ex] at ex'; cases ex'; rfl
    | leave e' => cases hd; rw [e] at e'; cases e'; exact absurd i (not_inside_end (len e))
    | die e' i' ex' => cases hd; rw [ex] at ex'; cases ex'
  | @leave _ k1 _ a n e =>
    cases h2 with
    | own | enter => cases hd
    | next e' i' ex' => cases hd; rw [e] at e'; cases e'; exact absurd i' (not_inside_end (len e))
    | @leave _ k2 _ a' n' e' =>
      injection hd with hk _ hs
      subst hk hs
      rw [e] at e'; cases e'; rfl
    | die e' i' ex' => cases hd; rw [e] at e'; cases e'; exact absurd i' (not_inside_end (len e))
  | @die _ k1 _ s1 a _ n e i ex =>
    cases h2 with
    | own | enter => cases hd
    | next e' i' ex' => cases hd; rw [ex] at ex'; cases ex'
    | leave e' => cases hd; rw [e] at e'; cases e'; exact absurd i (not_inside_end (len e))
    | die => rfl

theorem Executes.ticks {k k' : κ} {a x x' : W} {n : Nat} {s s' : State} (e : I.site k = some (a, n, k'))
    (h : Executes I.avx I.text (Inside a n) x s x' s') : Ticks P I (.inside k x s) [] (.inside k x' s') := by
  induction h with
  | refl => exact .start
  | step h1 h2 _ ih => exact (Tick.next e h1 h2).ticks.silent ih

/-- A snippet as one step, and as bytes. -/
theorem snip_ticks (hI : I.Of P) {k k' : κ} {c : Code} {s s' : State} (e : P.site k = some (c, k'))
    (h : Exits c s s') : ∃ a n, I.site k = some (a, n, k') ∧ Ticks P I (.inside k a s) [] (.own k' s') := by
  obtain ⟨a, bs, hb, hs, _, hi⟩ := hI.some k c k' e
  exact ⟨a, bs.length, hi, ((leaves_of_exits I.avx hb hs h).ticks hi).silent (Tick.leave hi).ticks⟩

/-- Every execution of the lists of instructions is one of the bytes. -/
theorem ticks_of_armed (hI : I.Of P) {tr : List L} {c : Inst κ} (h : ArmedRun P k0 s0 tr c) {k : κ} {t : State}
    (e : c = .run k t) : Ticks P I (.own k0 s0) tr (.own k t) := by
  induction h generalizing k t with
  | start => cases e; exact .start
  | step _ h2 ih =>
    subst e
    cases h2 with
    | own hs => exact (ih rfl).step (.own hs)
    | snip hs hx =>
      obtain ⟨a, n, hi, ht⟩ := snip_ticks hI hs hx
      exact (ih rfl).trans ((Tick.enter hi).ticks.silent ht)

/-- What is known of the program in memory, if no snippet traps. -/
def TicksInv (P : Guest κ L) (I : Image κ) (k0 : κ) (s0 : State) (tr : List L) : Doing κ → Prop
  | .own k t => ArmedRun P k0 s0 tr (.run k t)
  | .inside k x t => ∃ c k' a n t0 t1, P.site k = some (c, k') ∧ I.site k = some (a, n, k') ∧ n < 2 ^ 64 ∧
      ArmedRun P k0 s0 tr (.run k t0) ∧ Exits c t0 t1 ∧
      Executes I.avx I.text (Inside a n) x t (a + BitVec.ofNat 64 n) t1
  | .killed => False

theorem ticks_inv (hI : I.Of P)
    (hx : ∀ tr k t c k', ArmedRun P k0 s0 tr (.run k t) → P.site k = some (c, k') → ∃ t', Exits c t t')
    {tr : List L} {d : Doing κ} (h : Ticks P I (.own k0 s0) tr d) : TicksInv P I k0 s0 tr d := by
  induction h with
  | start => exact .start
  | step _ h2 ih =>
    cases h2 with
    | own hs => exact .step ih (.own hs)
    | @enter k k' s a n e =>
      cases hp : P.site k with
      | none => rw [hI.none k hp] at e; cases e
      | some y =>
        obtain ⟨c, k1⟩ := y
        obtain ⟨a', bs, hb, hs, hl, e'⟩ := hI.some k c k1 hp
        rw [e] at e'
        cases e'
        obtain ⟨t', ht⟩ := hx _ _ _ _ _ ih hp
        refine ⟨c, k', a, bs.length, s, t', hp, e, hl, ?_, ht, leaves_of_exits I.avx hb hs ht⟩
        rw [List.append_nil]; exact ih
    | next e i ex =>
      obtain ⟨c, k1, a1, n1, t0, t1, hp, e', hl, h0, h1, h3⟩ := ih
      rw [e] at e'
      cases e'
      refine ⟨c, _, _, _, t0, t1, hp, e, hl, by rw [List.append_nil]; exact h0, h1, ?_⟩
      cases h3 with
      | refl => exact absurd i (not_inside_end hl)
      | step _ ex' h3 => rw [ex] at ex'; cases ex'; exact h3
    | leave e =>
      obtain ⟨c, k1, a1, n1, t0, t1, hp, e', hl, h0, h1, h3⟩ := ih
      rw [e] at e'
      cases e'
      refine .step h0 (.snip hp ?_)
      cases h3 with
      | refl => exact h1
      | step i _ _ => exact absurd i (not_inside_end hl)
    | die e i ex =>
      obtain ⟨c, k1, a1, n1, t0, t1, hp, e', hl, h0, h1, h3⟩ := ih
      rw [e] at e'
      cases e'
      cases h3 with
      | refl => exact absurd i (not_inside_end hl)
      | step _ ex' _ => rw [ex] at ex'; cases ex'

/-- **C117.** If the instrumented program does what the original does, when snippets are taken for the lists of
instructions which asmjit was asked for (C103 to C107), then so does the program in memory, where the processor
executes bytes.  No instruction is executed but those of the snippets: none begins in the middle of another
one, and `0x62` is not executed, so that it does not matter whether the processor has AVX-512. -/
theorem C117_same_behaviour (hI : I.Of P) (hR : P.Refines D k0 s0) : I.Refines P D k0 s0 := by
  have hx : ∀ tr k t c k', ArmedRun P k0 s0 tr (.run k t) → P.site k = some (c, k') → ∃ t', Exits c t t' := by
    intro tr k t c k' h e
    obtain ⟨s, h1, h2⟩ := hR.back tr k t h
    obtain ⟨t', h3⟩ := (hR.live tr k s t h1 h h2 [] k').1 ⟨s, .pass e⟩
    cases h3 with
    | snip e' hx => rw [e] at e'; cases e'; exact ⟨t', hx⟩
  have inv := fun {tr : List L} {d : Doing κ} (h : Ticks P I (.own k0 s0) tr d) => ticks_inv hI hx h
  refine ⟨?_, ?_, fun tr h => inv h, ?_, ?_⟩
  · intro tr k s h
    obtain ⟨t, h1, h2⟩ := hR.forth tr k s h
    exact ⟨t, ticks_of_armed hI h1 rfl, h2⟩
  · intro tr k t h
    exact hR.back tr k t (inv h)
  · intro tr k x t h
    obtain ⟨c, k', a, n, t0, t1, hp, e, hl, h0, h1, h3⟩ := inv h
    exact ⟨c, k', t1, hp, (h3.ticks e).silent (Tick.leave e).ticks⟩
  · intro tr k s t h1 h2 h3
    have h2' : ArmedRun P k0 s0 tr (.run k t) := inv h2
    refine ⟨fun l k' => ?_, ?_⟩
    · constructor
      · rintro ⟨s', hs⟩
        obtain ⟨t', ht⟩ := (hR.live tr k s t h1 h2' h3 [l] k').1 ⟨s', .own hs⟩
        cases ht with
        | own hs => exact ⟨t', .own hs⟩
      · rintro ⟨t', ht⟩
        cases ht with
        | own hs =>
          obtain ⟨s', hb⟩ := (hR.live tr k s t h1 h2' h3 [l] k').2 ⟨t', .own hs⟩
          cases hb with
          | own hs => exact ⟨s', hs⟩
    · constructor
      · rintro ⟨⟨c, k'⟩, e⟩
        obtain ⟨a, bs, _, _, _, hi⟩ := hI.some k c k' e
        exact ⟨a, .enter hi⟩
      · rintro ⟨x, h4⟩
        cases h4 with
        | enter e =>
          cases hp : P.site k with
          | none => rw [hI.none k hp] at e; cases e
          | some y => exact ⟨y, rfl⟩

/-- With attacks: if `0x62` is undefined wherever it stands (C93), then the executions of the bytes are those of
the lists of instructions, up to the points within snippets. -/
theorem C117_same_runs (hI : I.Of P) (hu : I.Undefined P) {tr : List L} :
    (∀ k t, Ticks P I (.own k0 s0) tr (.own k t) ↔ ArmedRun P k0 s0 tr (.run k t)) ∧
    (Ticks P I (.own k0 s0) tr .killed ↔ ArmedRun P k0 s0 tr .killed) := by
  have site : ∀ {k k' : κ} {a : W} {n : Nat}, I.site k = some (a, n, k') → ∃ c, P.site k = some (c, k') ∧ ∀ s, (∀ s', Leaves I.avx I.text a n s s' ↔ Exits c s s') ∧
        (DiesIn I.avx I.text a n s ↔ Traps c s) := by
    intro k k' a n e
    cases hp : P.site k with
    | none => rw [hI.none k hp] at e; cases e
    | some y =>
      obtain ⟨c, k1⟩ := y
      obtain ⟨a', bs, hb, hs, hl, e'⟩ := hI.some k c k1 hp
      have hk := e'
      rw [e] at e'
      cases e'
      exact ⟨c, rfl, fun s => C114_machine_code hb hs hl (fun h1 h2 => hu k c k' a _ k' hp hk h1 h2) s⟩
  have inv : ∀ {d : Doing κ} {tr : List L}, Ticks P I (.own k0 s0) tr d → match d with
      | .own k t => ArmedRun P k0 s0 tr (.run k t)
      | .inside k x t => ∃ k' a n t0, I.site k = some (a, n, k') ∧ ArmedRun P k0 s0 tr (.run k t0) ∧
          Executes I.avx I.text (Inside a n) a t0 x t
      | .killed => ArmedRun P k0 s0 tr .killed := by
    intro d tr h
    induction h with
    | start => exact .start
    | step _ h2 ih =>
      cases h2 with
      | own hs => exact .step ih (.own hs)
      | enter e => exact ⟨_, _, _, _, e, by rw [List.append_nil]; exact ih, .refl⟩
      | next e i ex =>
        obtain ⟨k1, a1, n1, t0, e', h0, h1⟩ := ih
        rw [e] at e'
        cases e'
        exact ⟨_, _, _, t0, e, by rw [List.append_nil]; exact h0, h1.trans (.step i ex .refl)⟩
      | leave e =>
        obtain ⟨k1, a1, n1, t0, e', h0, h1⟩ := ih
        rw [e] at e'
        cases e'
        obtain ⟨c, hp, hc⟩ := site e
        exact .step h0 (.snip hp (((hc t0).1 _).1 h1))
      | @die k k' s s' a x n e i ex =>
        obtain ⟨k1, a1, n1, t0, e', h0, h1⟩ := ih
        rw [e] at e'
        cases e'
        obtain ⟨c, hp, hc⟩ := site e
        refine .step h0 (.trap hp ((hc t0).2.1 ⟨x, s, i, h1, ?_⟩))
        rw [ex, executeAt_sigill ex]
  refine ⟨fun k t => ⟨fun h => inv h, fun h => ticks_of_armed hI h rfl⟩, fun h => inv h, fun h => ?_⟩
  generalize hc : Inst.killed = c at h
  cases h with
  | start => cases hc
  | step h1 h2 =>
    subst hc
    cases h2 with
    | @trap k k' s c e ht =>
      obtain ⟨a, bs, hb, hs, hl, hi⟩ := hI.some k c k' e
      obtain ⟨c', hp, hcc⟩ := site hi
      rw [e] at hp
      cases hp
      obtain ⟨x, s', hin, hex, hdie⟩ := (hcc s).2.2 ht
      exact (ticks_of_armed hI h1 rfl).trans ((Tick.enter hi).ticks.silent ((hex.ticks hi).silent
        (Tick.die hi hin hdie).ticks))

/-! ## There are such images -/

/-- The byte which belongs at an address if the snippet of point `k` is put at `base + 512 * idx k`. -/
def ByteAt (P : Guest κ L) (idx : κ → Nat) (base x : W) (b : Byte) : Prop :=
  ∃ k c k' bs i, ∃ h : i < bs.length, P.site k = some (c, k') ∧ assemble c = some bs ∧ bs.length ≤ 512 ∧
    x = base + BitVec.ofNat 64 (512 * idx k + i) ∧ b = bs[i]

theorem byteAt_unique {idx : κ → Nat} {base x : W} (hi : ∀ k k', P.site k ≠ none → P.site k' ≠ none → idx k = idx k' → k = k')
    (hb : ∀ k, P.site k ≠ none → idx k < 2 ^ 50) {b b' : Byte} (h : ByteAt P idx base x b) (h' : ByteAt P idx base x b') : b = b' := by
  obtain ⟨k, c, k1, bs, i, hl, h1, h2, h3, h4, rfl⟩ := h
  obtain ⟨l, d, l1, bs', j, hl', h1', h2', h3', h4', rfl⟩ := h'
  have e : BitVec.ofNat 64 (512 * idx k + i) = BitVec.ofNat 64 (512 * idx l + j) := by
    rw [h4] at h4'
    have := congrArg (· - base) h4'
    simpa [BitVec.add_comm base] using this
  have e := congrArg BitVec.toNat e
  simp only [BitVec.toNat_ofNat] at e
  have n1 : P.site k ≠ none := by rw [h1]; simp
  have n2 : P.site l ≠ none := by rw [h1']; simp
  have := hb k n1
  have := hb l n2
  rw [Nat.mod_eq_of_lt (by omega), Nat.mod_eq_of_lt (by omega)] at e
  obtain rfl : k = l := hi _ _ n1 n2 (by omega)
  obtain rfl : i = j := by omega
  rw [h1] at h1'
  cases h1'
  rw [h2] at h2'
  cases h2'
  rfl

/-- Snippets which asmjit can encode can be put somewhere. -/
theorem image_exists (P : Guest κ L) {idx : κ → Nat} (hi : ∀ k k', P.site k ≠ none → P.site k' ≠ none → idx k = idx k' → k = k')
    (hb : ∀ k, P.site k ≠ none → idx k < 2 ^ 50) (ha : ∀ k c k', P.site k = some (c, k') → ∃ bs, assemble c = some bs ∧ bs.length ≤ 512)
    (avx : Bool) (base : W) : ∃ I : Image κ, I.Of P ∧ I.avx = avx := by
  classical
  refine ⟨⟨avx, fun x => if h : ∃ b, ByteAt P idx base x b then h.choose else 0x90, fun k => (P.site k).bind fun y =>
    (assemble y.1).map fun bs => (base + BitVec.ofNat 64 (512 * idx k), bs.length, y.2)⟩, ⟨?_, ?_⟩, rfl⟩
  · intro k hk
    simp [hk]
  · intro k c k' hk
    obtain ⟨bs, h1, h2⟩ := ha k c k' hk
    refine ⟨base + BitVec.ofNat 64 (512 * idx k), bs, h1, ?_, by omega, by simp [hk, h1]⟩
    intro i hl
    have hx : ByteAt P idx base (base + BitVec.ofNat 64 (512 * idx k) + BitVec.ofNat 64 i) bs[i] :=
      ⟨k, c, k', bs, i, hl, hk, h1, h2, by rw [BitVec.ofNat_add, BitVec.add_assoc], rfl⟩
    have he : ∃ b, ByteAt P idx base (base + BitVec.ofNat 64 (512 * idx k) + BitVec.ofNat 64 i) b := ⟨_, hx⟩
    show (if h : ∃ b, ByteAt P idx base _ b then h.choose else 0x90) = _
    rw [dif_pos he]
    exact byteAt_unique hi hb he.choose_spec hx

/-- The snippets of the tool, when the offsets from the stack pointer to the return address fit (C115). -/
def Site.Near : Site → Prop
  | .push _ d _ _ => OffsetOk d
  | .check _ d _ _ => OffsetOk d
  | .save _ _ d => OffsetOk d
  | .compare .. => True

theorem Site.assembles {x : Site} (h : x.Emitted) (hd : x.Near) : ∃ bs, assemble x.code = some bs ∧ bs.length ≤ 512 := by
  have key : ∃ bs, assemble x.code = some bs ∧ bs.length ≤ 405 := by
    cases x with
    | push c d n free =>
      obtain ⟨fl, sm, uo, ht, uf, b, ts, mid, _, hm, _, hc, rfl, _, _⟩ := h
      exact push_assembles hm hc hd
    | check c d n free =>
      obtain ⟨fl, sm, uo, b, addr, mid, _, hm, _, hc, rfl, _, _⟩ := h
      exact pop_assembles hm hc hd
    | save c r d =>
      obtain ⟨fl, sm, _, _, hc⟩ := h
      exact regPush_assembles hc hd
    | compare c r =>
      obtain ⟨fl, sm, _, _, hc⟩ := h
      exact regPop_assembles hc
  obtain ⟨bs, h1, h2⟩ := key
  exact ⟨bs, h1, by omega⟩

/-- **C117, images exist**: wherever the tool's snippets are inserted, their bytes can be put somewhere, each on its own. -/
theorem C117_image {idx : κ → Nat} (hi : ∀ k k', P.site k ≠ none → P.site k' ≠ none → idx k = idx k' → k = k') (hb : ∀ k, P.site k ≠ none → idx k < 2 ^ 50)
    (ha : ∀ k c k', P.site k = some (c, k') → ∃ x : Site, x.code = c ∧ x.Emitted ∧ x.Near) (avx : Bool) (base : W) :
    ∃ I : Image κ, I.Of P ∧ I.avx = avx :=
  image_exists P hi hb (fun k c k' h => by
    obtain ⟨x, rfl, h1, h2⟩ := ha k c k' h
    exact Site.assembles h1 h2) avx base

end Verif
