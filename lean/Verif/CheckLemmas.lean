import Verif.Emit

/-! The check on a shadow stack which holds a given list. -/

namespace Verif

/-- The first position at which a list satisfies a predicate, if the last one does. -/
theorem exists_first (p : Nat → Prop) [DecidablePred p] (d : Nat) (h : p d) :
    ∃ n, n ≤ d ∧ p n ∧ ∀ i, i < n → ¬ p i := by
  induction d using Nat.strongRecOn with
  | _ d ih =>
    by_cases hc : ∃ i, i < d ∧ p i
    · obtain ⟨i, hi, hp⟩ := hc
      obtain ⟨n, hn, h1, h2⟩ := ih i hi hp
      exact ⟨n, by omega, h1, h2⟩
    · exact ⟨d, Nat.le_refl _, h, fun i hi hp => hc ⟨i, hi, hp⟩⟩

/-- The checker's answer on a list of entries: search for `ret`, give up at a
guard-like entry.  `some n`: accepted at entry `n`. -/
def scan (ret : W) : List W → Option Nat
  | [] => if (0#64 : W) = ret then some 0 else none
  | v :: l => if v = ret then some 0 else if GuardLike v then none else (scan ret l).map (· + 1)

theorem guardLike_zero : GuardLike 0#64 := by decide

theorem CheckSep.mono {R : W} {n d d' : Nat} {s : State} (h : CheckSep R n d s) (hd : d' ≤ d) :
    CheckSep R n d' s :=
  ⟨h.ret_gs, h.ret_save, h.gs_save, fun i hi => h.ent_gs i (by omega),
    fun i hi => h.ent_save i (by omega)⟩

theorem scan_some {ret : W} {l : List W} {n : Nat} (h : scan ret l = some n) :
    n ≤ l.length ∧ (∀ i, (hi : i < n) → (hl : i < l.length) → l[i] ≠ ret ∧ ¬ GuardLike l[i]) ∧
      (∀ hl : n < l.length, l[n] = ret) ∧ (n = l.length → ret = 0#64) := by
  induction l generalizing n with
  | nil =>
    simp only [scan] at h
    split at h
    · next e =>
      simp at h; subst h
      exact ⟨by simp, by simp, by simp, fun _ => e.symm⟩
    · simp at h
  | cons v l ih =>
    simp only [scan] at h
    split at h
    · next e =>
      simp at h; subst h; subst e
      refine ⟨by simp, by simp, by simp, by simp⟩
    · next e =>
      split at h
      · simp at h
      · next hg =>
        obtain ⟨m, hm, rfl⟩ := Option.map_eq_some_iff.1 h
        obtain ⟨a, b, c, d⟩ := ih hm
        refine ⟨by simpa using a, ?_, ?_, ?_⟩
        · intro i hi hl
          cases i with
          | zero => exact ⟨e, hg⟩
          | succ i => exact b i (by omega) (by simpa using hl)
        · intro hl; exact c (by simpa using hl)
        · intro hl; exact d (by simpa using hl)

theorem scan_none {ret : W} {l : List W} (h : scan ret l = none) :
    ∃ n, n ≤ l.length ∧
      (∀ i, (hi : i < n) → (hl : i < l.length) → l[i] ≠ ret ∧ ¬ GuardLike l[i]) ∧
      (∀ hl : n < l.length, l[n] ≠ ret ∧ GuardLike l[n]) ∧ (n = l.length → ret ≠ 0#64) := by
  induction l with
  | nil =>
    simp only [scan] at h
    split at h
    · simp at h
    · next e => exact ⟨0, by simp, by simp, by simp, fun _ hc => e hc.symm⟩
  | cons v l ih =>
    simp only [scan] at h
    split at h
    · simp at h
    · next e =>
      split at h
      · next hg => exact ⟨0, by simp, by simp, fun _ => ⟨e, hg⟩, by simp⟩
      · next hg =>
        obtain ⟨n, a, b, c, d⟩ := ih (by simpa using h)
        refine ⟨n + 1, by simpa using a, ?_, ?_, ?_⟩
        · intro i hi hl
          cases i with
          | zero => exact ⟨e, hg⟩
          | succ i => exact b i (by omega) (by simpa using hl)
        · intro hl; exact c (by simpa using hl)
        · intro hl; exact d (by simpa using hl)

theorem State.Holds.entry {s : State} {l : List W} (h : s.Holds l) {i : Nat}
    (hi : i ≤ l.length) : s.entry i = if hl : i < l.length then l[i] else 0#64 := by
  split
  · next hl => exact h.entries i hl
  · next hl =>
    have : i = l.length := by omega
    subst this; exact h.guard

/-- The emitted check computes `scan`. -/
theorem pop_scan {fl : JitFlags} (hf : Normal fl) {sm : Option JitSummary}
    {mid : Option MoveInst} {addr : Nat} (h : ScratchOk fl (deadExit sm addr) mid) :
    ∃ code, stackPopWith fl sm mid addr = some code ∧ ∀ (s : State) (l : List W), s.Holds l →
      CheckSep (s.regs .rsp + BitVec.ofInt 64 (popDisp mid))
        (belowSp fl (deadExit sm addr) mid) (l.length + 1) s →
      match scan (s.mem.read64 (s.regs .rsp + BitVec.ofInt 64 (popDisp mid))) l with
      | some n => ∃ s', Exits code s s' ∧ Checked (ScratchFree fl (deadExit sm addr) mid)
          (belowSp fl (deadExit sm addr) mid) n s s'
      | none => Traps code s := by
  obtain ⟨code, he, hx⟩ := pop_correct hf h
  refine ⟨code, he, fun s l hl hsep => ?_⟩
  generalize hR : s.regs .rsp + BitVec.ofInt 64 (popDisp mid) = R at *
  split
  · next n hn =>
    obtain ⟨a, b, c, d⟩ := scan_some hn
    refine (hx s n (by rw [hR]; exact hsep.mono (by omega)) ?_).1 ?_
    · intro i hi
      rw [hl.entry (by omega), dif_pos (by omega), hR]
      exact b i hi (by omega)
    · rw [hl.entry a, hR]
      split
      · next hlt => exact c hlt
      · next hlt => exact (d (by omega)).symm
  · next hn =>
    obtain ⟨n, a, b, c, d⟩ := scan_none hn
    have e : s.entry n ≠ s.mem.read64 R ∧ GuardLike (s.entry n) := by
      rw [hl.entry a]
      split
      · next hlt => exact c hlt
      · next hlt => exact ⟨fun hc => d (by omega) hc.symm, guardLike_zero⟩
    refine (hx s n (by rw [hR]; exact hsep.mono (by omega)) ?_).2 (by rw [hR]; exact e.1) e.2
    intro i hi
    rw [hl.entry (by omega), dif_pos (by omega), hR]
    exact b i hi (by omega)

theorem scan_found {ret : W} {pre post : List W} (h1 : ret ∉ pre)
    (h2 : ∀ v, v ∈ pre → ¬ GuardLike v) : scan ret (pre ++ ret :: post) = some pre.length := by
  induction pre with
  | nil => simp [scan]
  | cons v pre ih =>
    simp only [List.mem_cons, not_or] at h1
    rw [List.cons_append, scan, if_neg (fun e => h1.1 e.symm),
      if_neg (h2 v (List.mem_cons_self ..)),
      ih h1.2 fun v hv => h2 v (List.mem_cons_of_mem _ hv)]
    simp

theorem scan_missing {ret : W} {l : List W} (h0 : ret ≠ 0#64) (h : ret ∉ l) :
    scan ret l = none := by
  induction l with
  | nil => simp [scan, h0.symm]
  | cons v l ih =>
    simp only [List.mem_cons, not_or] at h
    rw [scan, if_neg (fun e => h.1 e.symm), ih h.2]
    simp

theorem scan_zero {l : List W} (h : ∀ v, v ∈ l → ¬ GuardLike v) : scan 0#64 l = some l.length := by
  induction l with
  | nil => simp [scan]
  | cons v l ih =>
    have hv := h v (List.mem_cons_self ..)
    rw [scan, if_neg (fun e : v = 0#64 => hv (by rw [e]; exact guardLike_zero)), if_neg hv,
      ih fun v hv => h v (List.mem_cons_of_mem _ hv)]
    simp

theorem scan_guard {ret v : W} {pre post : List W} (h1 : ret ∉ pre) (hv : GuardLike v)
    (hr : v ≠ ret) : scan ret (pre ++ v :: post) = none := by
  induction pre with
  | nil => simp [scan, hr, hv]
  | cons u pre ih =>
    simp only [List.mem_cons, not_or] at h1
    rw [List.cons_append, scan, if_neg (fun e => h1.1 e.symm), ih h1.2]
    simp

theorem entry_sub (q : W) (n i : Nat) :
    q - BitVec.ofNat 64 (8 * (n + 1)) - BitVec.ofNat 64 (8 * (i + 1)) =
      q - BitVec.ofNat 64 (8 * (n + 1 + i + 1)) := by
  bv_omega

/-- After the check accepted at entry `n`, the shadow stack holds the entries below. -/
theorem Checked.holds {free : Reg → Prop} {k n : Nat} {s s' : State} {l : List W} {R : W}
    (hc : Checked free k n s s') (hl : s.Holds l)
    (hsep : CheckSep R k (l.length + 1) s) (hn : n < l.length) : s'.Holds (l.drop (n + 1)) := by
  have key : ∀ i, n + 1 + i ≤ l.length → s'.entry i = s.entry (n + 1 + i) := by
    intro i hi
    rw [State.entry, hc.pointer, entry_sub, State.entry]
    refine read64_eq _ _ _ fun x hx => hc.same.mem x ?_
    intro p hp
    rcases List.mem_cons.1 hp with rfl | hp
    · exact sep_not_inRange (hsep.ent_gs _ (by omega)) hx
    rw [List.mem_singleton] at hp; subst hp
    exact sep_not_inRange (hsep.ent_save _ (by omega)) hx
  constructor
  · intro i hi
    simp only [List.length_drop] at hi
    rw [key i (by omega), hl.entries _ (by omega), List.getElem_drop]
  · rw [List.length_drop, key _ (by omega)]
    have : n + 1 + (l.length - (n + 1)) = l.length := by omega
    rw [this, hl.guard]

/-- After a push, the shadow stack holds one more entry. -/
theorem Pushed.holds {free : Reg → Prop} {R : W} {k : Nat} {s s' : State} {l : List W}
    (hp : Pushed free R k s s') (hl : s.Holds l)
    (hslot : ∀ i, i ≤ l.length → Sep (s.shadow - BitVec.ofNat 64 (8 * (i + 1))) 8 s.shadow 8)
    (hgs : ∀ i, i ≤ l.length → Sep (s.shadow - BitVec.ofNat 64 (8 * (i + 1))) 8 s.gs 8)
    (hsave : ∀ i, i ≤ l.length → Sep (s.shadow - BitVec.ofNat 64 (8 * (i + 1))) 8
      (s.regs .rsp - BitVec.ofNat 64 k) k) :
    s'.Holds (s.mem.read64 R :: l) := by
  have key : ∀ i, i ≤ l.length → s'.entry (i + 1) = s.entry i := by
    intro i hi
    rw [State.entry, hp.pointer, State.entry]
    have : s.shadow + 8 - BitVec.ofNat 64 (8 * (i + 1 + 1)) =
        s.shadow - BitVec.ofNat 64 (8 * (i + 1)) := by bv_omega
    rw [this]
    refine read64_eq _ _ _ fun x hx => hp.same.mem x ?_
    intro p hp
    rcases List.mem_cons.1 hp with rfl | hp
    · exact sep_not_inRange (hslot _ hi) hx
    rcases List.mem_cons.1 hp with rfl | hp
    · exact sep_not_inRange (hgs _ hi) hx
    rw [List.mem_singleton] at hp; subst hp
    exact sep_not_inRange (hsave _ hi) hx
  constructor
  · intro i hi
    cases i with
    | zero =>
      rw [State.entry, hp.pointer]
      have : s.shadow + 8 - BitVec.ofNat 64 (8 * (0 + 1)) = s.shadow := by bv_omega
      rw [this, hp.recorded]; rfl
    | succ i =>
      simp only [List.length_cons] at hi
      rw [key i (by omega), hl.entries i (by omega)]; rfl
  · rw [List.length_cons, key _ (Nat.le_refl _), hl.guard]

end Verif
