import Verif.MachineLemmas
import Verif.Emitted

/-!
When the assembler reports no error, and that it reports none for the snippets.
-/

namespace Verif

/-- The numbers in an instruction can be encoded. -/
def Instr.fits : Instr → Bool
  | .load _ _ d | .store _ d _ | .lea _ _ d | .cmpMem _ _ d | .loadGs _ d | .storeGs d _ => fits32 d
  | .addGs d i | .subGs d i => fits32 d && fits32 i
  | .subImm _ i | .cmpDword _ i => fits32 i
  | _ => true

/-- The label which an instruction binds. -/
def Instr.bound : Instr → Option Label
  | .bind l => some l
  | _ => none

theorem encode_of_fits {i : Instr} (h : i.fits = true) (hs : i.straight = true) : ∃ bs, i.encode = some bs := by
  cases i <;> first
    | cases hs; done
    | exact ⟨_, rfl⟩
    | (simp only [Instr.fits, Bool.and_eq_true] at h; simp [Instr.encode, rmBytes, h])

theorem fits_of_encode {i : Instr} {bs : List Byte} (h : i.encode = some bs) : i.fits = true := by
  cases i <;> simp_all [Instr.encode, rmBytes, Instr.fits]

theorem sizeAt_some {i : Instr} (h : i.fits = true) (known : Label → Option Nat) (pos : Nat) :
    ∃ n, sizeAt known pos i = some n ∧ n ≤ 15 := by
  by_cases hs : i.straight = true
  · obtain ⟨bs, hb⟩ := encode_of_fits h hs
    refine ⟨bs.length, ?_, encode_length hb⟩
    cases i <;> first
      | cases hs; done
      | simp [sizeAt, Instr.jump, hb]
  · cases i <;> first
      | exact absurd rfl hs
      | exact ⟨_, rfl, by omega⟩
      | (refine ⟨_, rfl, ?_⟩; split <;> simp)

theorem labelsOf_some : ∀ (k : Code) (known : Label → Option Nat) (pos : Nat), (∀ i ∈ k, i.fits = true) →
    (k.filterMap Instr.bound).Nodup → (∀ l ∈ k.filterMap Instr.bound, known l = none) →
    ∃ final, labelsOf known pos k = some final ∧
      (∀ l q, final l = some q → known l = some q ∨ q ≤ pos + 15 * k.length) ∧
      (∀ l ∈ k.filterMap Instr.bound, (final l).isSome) := by
  intro k
  induction k with
  | nil => intro known pos _ _ _; exact ⟨known, rfl, fun l q h => .inl h, nofun⟩
  | cons i k ih =>
    intro known pos hf hd hk
    obtain ⟨n, hn, hle⟩ := sizeAt_some (hf i (List.mem_cons_self ..)) known pos
    have hf' : ∀ i ∈ k, i.fits = true := fun j hj => hf j (List.mem_cons_of_mem _ hj)
    by_cases hb : ∃ l, i = .bind l
    · obtain ⟨l, rfl⟩ := hb
      simp only [List.filterMap_cons, Instr.bound, List.nodup_cons, List.mem_cons, forall_eq_or_imp] at hd hk ⊢
      have hb : boundBy known pos (.bind l) = some fun l' => if l' = l then some pos else known l' := by
        simp [boundBy, hk.1]
      obtain ⟨final, h1, h2, h3⟩ := ih (fun l' => if l' = l then some pos else known l') (pos + n) hf' hd.2
        (fun l' hl' => by
          have : l' ≠ l := by rintro rfl; exact hd.1 hl'
          simp [this, hk.2 l' hl'])
      refine ⟨final, by simp [labelsOf, hb, hn, h1], fun l' q hq => ?_, ?_, h3⟩
      · rcases h2 l' q hq with h | h
        · by_cases e : l' = l
          · simp only [e, if_true, Option.some.injEq] at h
            right; omega
          · simp only [e, if_false] at h; exact .inl h
        · right; simp only [List.length_cons]; omega
      · rw [labelsOf_keeps h1 (l := l) (q := pos) (by simp)]; rfl
    · have hnb : i.bound = none := by
        cases i <;> first | rfl | exact absurd ⟨_, rfl⟩ hb
      have hb : boundBy known pos i = some known := by
        cases i <;> first | rfl | exact absurd ⟨_, rfl⟩ hb
      simp only [List.filterMap_cons, hnb] at hd hk ⊢
      obtain ⟨final, h1, h2, h3⟩ := ih known (pos + n) hf' hd hk
      refine ⟨final, by simp [labelsOf, hb, hn, h1], fun l' q hq => ?_, h3⟩
      rcases h2 l' q hq with h | h
      · exact .inl h
      · right; simp only [List.length_cons]; omega

theorem bytesFrom_some {final : Label → Option Nat} (hq : ∀ l q, final l = some q → q < 2147483648) :
    ∀ (k : Code) (known : Label → Option Nat) (pos : Nat), (∀ i ∈ k, i.fits = true) →
    labelsOf known pos k = some final → (∀ i ∈ k, ∀ l o, i.jump = some (l, o) → (final l).isSome) →
    pos + 15 * k.length < 2147483648 →
    ∃ bs, bytesFrom final known pos k = some bs ∧ bs.length ≤ 15 * k.length := by
  intro k
  induction k with
  | nil => intro known pos _ _ _ _; exact ⟨[], rfl, by simp⟩
  | cons i k ih =>
    intro known pos hf hl hj hp
    simp only [labelsOf, Option.bind_eq_bind, Option.bind_eq_some_iff] at hl
    obtain ⟨known', h1, n, h2, h3⟩ := hl
    have hb : ∃ b, bytesAt final known pos i = some b := by
      have hfi := hf i (List.mem_cons_self ..)
      cases hji : i.jump with
      | some x =>
        obtain ⟨l, short, long⟩ := x
        have := hj i (List.mem_cons_self ..) l _ hji
        obtain ⟨q, hql⟩ := Option.isSome_iff_exists.mp this
        have hll : long.length ≤ 2 := by
          cases i <;> simp only [Instr.jump, Option.some.injEq, Prod.mk.injEq, reduceCtorEq] at hji <;>
            (obtain ⟨_, _, rfl⟩ := hji; simp)
        simp only [bytesAt, hji]
        split
        · exact ⟨_, rfl⟩
        · have := hq _ _ hql
          simp only [List.length_cons] at hp
          have : fits32 ((q : Int) - (pos + (long.length + 4))) = true := by
            simp only [fits32, decide_eq_true_eq]; omega
          simp [hql, this]
      | none =>
        by_cases hs : i.straight = true
        · obtain ⟨bs, hb⟩ := encode_of_fits hfi hs
          refine ⟨bs, ?_⟩
          cases i <;> first
            | cases hs; done
            | simp [bytesAt, Instr.jump, hb]
        · cases i <;> first
            | exact absurd rfl hs
            | cases hji; done
            | exact ⟨_, rfl⟩
    obtain ⟨b, hb⟩ := hb
    have hs := bytesAt_size hb
    rw [h2, Option.some.injEq] at hs
    subst hs
    obtain ⟨n', h4, h5⟩ := sizeAt_some (hf i (List.mem_cons_self ..)) known pos
    rw [h2, Option.some.injEq] at h4
    simp only [List.length_cons] at hp
    obtain ⟨r, h6, h7⟩ := ih known' (pos + b.length) (fun j hj => hf j (List.mem_cons_of_mem _ hj)) h3
      (fun j h => hj j (List.mem_cons_of_mem _ h)) (by omega)
    refine ⟨b ++ r, by simp [bytesFrom, hb, h1, h6], ?_⟩
    simp only [List.length_append, List.length_cons]
    omega

/-- **No errors.**  Numbers which fit, labels which are bound once, jumps to labels which are bound. -/
theorem assemble_ok {code : Code} (hf : ∀ i ∈ code, i.fits = true) (hd : (code.filterMap Instr.bound).Nodup)
    (hj : ∀ i ∈ code, ∀ l o, i.jump = some (l, o) → Instr.bind l ∈ code) (hn : 15 * code.length < 2147483648) :
    ∃ bs, assemble code = some bs ∧ bs.length ≤ 15 * code.length := by
  obtain ⟨final, h1, h2, h3⟩ := labelsOf_some code (fun _ => none) 0 hf hd (fun _ _ => rfl)
  obtain ⟨bs, h4, h5⟩ := bytesFrom_some (final := final) (fun l q hq => by
      rcases h2 l q hq with h | h
      · cases h
      · omega) code (fun _ => none) 0 hf h1
    (fun i hi l o h => h3 l (List.mem_filterMap.mpr ⟨_, hj i hi l o h, rfl⟩)) (by omega)
  exact ⟨bs, by simp [assemble, h1, h4], h5⟩

/-! ## The snippets -/

/-- Pushes and pops of registers. -/
def Instr.moves : Instr → Bool
  | .push _ | .pop _ => true
  | _ => false

/-- Pushes, a body, pops. -/
theorem assemble_around {c1 c2 c3 : Code} (h1 : ∀ i ∈ c1, i.moves = true) (h3 : ∀ i ∈ c3, i.moves = true)
    (hf : ∀ i ∈ c2, i.fits = true) (hd : (c2.filterMap Instr.bound).Nodup)
    (hj : ∀ i ∈ c2, ∀ l o, i.jump = some (l, o) → Instr.bind l ∈ c2)
    (hn : 15 * (c1 ++ c2 ++ c3).length < 2147483648) : ∃ bs, assemble (c1 ++ c2 ++ c3) = some bs ∧
      bs.length ≤ 15 * (c1 ++ c2 ++ c3).length := by
  have hm : ∀ i : Instr, i.moves = true → i.fits = true ∧ i.bound = none ∧ i.jump = none := by
    intro i h
    cases i <;> first | cases h; done | exact ⟨rfl, rfl, rfl⟩
  have hmf : ∀ c : Code, (∀ i ∈ c, i.moves = true) → c.filterMap Instr.bound = [] := fun c h =>
    List.filterMap_eq_nil_iff.mpr fun i hi => (hm i (h i hi)).2.1
  refine assemble_ok ?_ ?_ ?_ hn
  · intro i hi
    simp only [List.mem_append] at hi
    rcases hi with (hi | hi) | hi
    · exact (hm i (h1 i hi)).1
    · exact hf i hi
    · exact (hm i (h3 i hi)).1
  · simp only [List.filterMap_append, hmf c1 h1, hmf c3 h3, List.nil_append, List.append_nil]
    exact hd
  · intro i hi l o ho
    simp only [List.mem_append] at hi ⊢
    rcases hi with (hi | hi) | hi
    · rw [(hm i (h1 i hi)).2.2] at ho; cases ho
    · exact .inl (.inr (hj i hi l o ho))
    · rw [(hm i (h3 i hi)).2.2] at ho; cases ho

/-- Saving scratch registers: at most three pushes, each of which moves the return address by 8 bytes. -/
def Saves (base : Int) (c : Code) (t : Temps) : Prop :=
  (∀ i ∈ c, i.moves = true) ∧ c.length ≤ 3 ∧ t.spOffset = base + 8 * c.length

theorem save_saves {t t' : Temps} {r : Option Reg} {c : Code} (h : save t r = some (c, t')) :
    (∀ i ∈ c, i.moves = true) ∧ c.length ≤ 1 ∧ t'.spOffset = t.spOffset + 8 * c.length := by
  simp only [save, Option.map_eq_some_iff, Prod.mk.injEq] at h
  obtain ⟨r, _, rfl, rfl⟩ := h
  simp [Instr.moves]

theorem saveOrSkip_saves {t t' : Temps} {name : String} {c : Code}
    (h : saveOrSkip1 t name = some (c, t') ∨ saveOrSkip2 t name = some (c, t') ∨ saveOrSkip3 t name = some (c, t')) :
    (∀ i ∈ c, i.moves = true) ∧ c.length ≤ 1 ∧ t'.spOffset = t.spOffset + 8 * c.length := by
  rcases h with h | h | h
  · unfold saveOrSkip1 at h
    split at h
    · cases h; simp
    · exact save_saves h
  · unfold saveOrSkip2 at h
    split at h
    · cases h; simp
    · exact save_saves h
  · unfold saveOrSkip3 at h
    split at h
    · cases h; simp
    · exact save_saves h

theorem pickTemps_spOffset (ex : List String) : ∀ (m : List (String × Reg)) (n : Nat) (t : Temps),
    (pickTemps ex m n t).spOffset = t.spOffset := by
  intro m
  induction m with
  | nil => intro n t; rfl
  | cons p m ih =>
    intro n t
    have : (if ex.contains p.1 then t else
      match n with
      | 0 => { t with tmp1 := some p.2 }
      | 1 => { t with tmp2 := some p.2 }
      | 2 => { t with tmp3 := some p.2 }
      | _ => t).spOffset = t.spOffset := by
      split
      · rfl
      · split <;> rfl
    obtain ⟨name, r⟩ := p
    simp only [pickTemps]
    generalize (if ex.contains name = true then t else _ : Temps) = t' at this ⊢
    generalize (if ex.contains name = true then n else n + 1) = n'
    by_cases h : n' = 2
    · simp only [h, if_true]; exact this
    · simp only [h, if_false]; rw [ih]; exact this

theorem saveTemps_saves {fl : JitFlags} {dead ex : List String} {height : Int} {c : Code} {t : Temps}
    (h : saveTemps fl dead ex height = some (c, t)) : Saves height c t := by
  have h0 : (Temps.ofExclude ex height).spOffset = height := pickTemps_spOffset ..
  unfold saveTemps at h
  dsimp only at h
  split at h
  · simp only [Option.bind_eq_bind, Option.bind_eq_some_iff, Option.pure_def, Option.some.injEq, Prod.exists,
      Prod.mk.injEq] at h
    obtain ⟨c1, t1, h1, c2, t2, h2, rfl, rfl⟩ := h
    obtain ⟨a1, a2, a3⟩ := save_saves h1
    obtain ⟨b1, b2, b3⟩ := save_saves h2
    refine ⟨fun i hi => (List.mem_append.mp hi).elim (a1 i) (b1 i), ?_, ?_⟩
    · simp only [List.length_append]; omega
    · rw [b3, a3, h0]; simp only [List.length_append]; omega
  · simp only [Option.bind_eq_bind, Option.bind_eq_some_iff, Option.pure_def, Option.some.injEq, Prod.exists,
      Prod.mk.injEq] at h
    obtain ⟨n1, _, c1, t1, h1, n2, _, c2, t2, h2, n3, _, c3, t3, h3, rfl, rfl⟩ := h
    obtain ⟨a1, a2, a3⟩ := saveOrSkip_saves (.inl h1)
    obtain ⟨b1, b2, b3⟩ := saveOrSkip_saves (.inr (.inl h2))
    obtain ⟨d1, d2, d3⟩ := saveOrSkip_saves (.inr (.inr h3))
    refine ⟨fun i hi => ?_, ?_, ?_⟩
    · simp only [List.mem_append] at hi
      rcases hi with (hi | hi) | hi
      · exact a1 i hi
      · exact b1 i hi
      · exact d1 i hi
    · simp only [List.length_append]; omega
    · rw [d3, b3, a3, h0]; simp only [List.length_append]; omega

theorem useSpecified_saves {mid : MoveInst} {height : Int} {c : Code} {t : Temps}
    (h : useSpecified mid height = some (c, t)) : Saves (mid.raOffset + height) c t := by
  have h0 : (Temps.ofMove mid height).spOffset = mid.raOffset + height := rfl
  have hs1 : (Temps.ofMove mid height).saved1 = false := rfl
  cases hs2 : (Temps.ofMove mid height).saved2 with
  | true =>
    simp only [useSpecified, hs1, hs2, if_true, Bool.false_eq_true, if_false, Option.bind_eq_bind, Option.bind_some,
      Option.bind_eq_some_iff, Option.pure_def, Option.some.injEq, Prod.exists, Prod.mk.injEq, List.nil_append] at h
    obtain ⟨c2, t2, h2, rfl, rfl⟩ := h
    obtain ⟨b1, b2, b3⟩ := save_saves h2
    exact ⟨b1, by omega, by rw [b3, h0]⟩
  | false =>
    simp only [useSpecified, hs1, hs2, Bool.false_eq_true, if_false, Option.bind_eq_bind, Option.bind_some,
      Option.pure_def, Option.some.injEq, Prod.mk.injEq, List.nil_append] at h
    obtain ⟨rfl, rfl⟩ := h
    exact ⟨nofun, by simp, by simp [h0]⟩

theorem restoreTemps_moves {t : Temps} {c : Code} (h : restoreTemps t = some c) :
    (∀ i ∈ c, i.moves = true) ∧ c.length ≤ 2 := by
  cases h2 : t.saved2 <;> cases h1 : t.saved1 <;> cases e2 : t.tmp2 <;> cases e1 : t.tmp1 <;>
    simp [restoreTemps, h1, h2, e1, e2] at h <;> subst h <;> simp [Instr.moves]

/-- A body which can be put between pushes and pops. -/
def FitBody (c : Code) : Prop :=
  (∀ i ∈ c, i.fits = true) ∧ (c.filterMap Instr.bound).Nodup ∧
    (∀ i ∈ c, ∀ l o, i.jump = some (l, o) → Instr.bind l ∈ c) ∧ c.length ≤ 22

theorem sound_nil : FitBody [] := ⟨nofun, .nil, nofun, by simp⟩

theorem saveRa_sound {sp ra : Reg} {t : Temps} (h : fits32 t.spOffset = true) : FitBody (saveRa sp ra t) := by
  refine ⟨?_, by simp [saveRa, Instr.bound, List.filterMap_cons], ?_, by simp [saveRa]⟩
  · simp [saveRa, Instr.fits, h]; decide
  · simp [saveRa, Instr.jump]

theorem saveRaAndFrame_sound {sp ra : Reg} {t : Temps} (h : fits32 t.spOffset = true) :
    FitBody (saveRaAndFrame sp ra t) := by
  refine ⟨?_, by simp [saveRaAndFrame, Instr.bound, List.filterMap_cons], ?_, by simp [saveRaAndFrame]⟩
  · simp [saveRaAndFrame, Instr.fits, h]; decide
  · simp [saveRaAndFrame, Instr.jump]

theorem validateRa_sound {sp ra : Reg} {t : Temps} (h : fits32 t.spOffset = true) : FitBody (validateRa sp ra t) := by
  refine ⟨?_, by simp [validateRa, Instr.bound, List.filterMap_cons], ?_, by simp [validateRa]⟩
  · simp [validateRa, Instr.fits, h]; decide
  · intro i hi l o ho
    simp only [validateRa, List.mem_cons, List.not_mem_nil, or_false] at hi
    rcases hi with rfl | rfl | rfl | rfl | rfl | rfl | rfl | rfl | rfl | rfl | rfl | rfl | rfl <;>
      simp only [Instr.jump, reduceCtorEq, Option.some.injEq, Prod.mk.injEq] at ho <;>
      (obtain ⟨rfl, _⟩ := ho; simp [validateRa])

theorem validateRaAndFrame_sound {sp ra : Reg} {t : Temps} (h : fits32 t.spOffset = true) :
    FitBody (validateRaAndFrame sp ra t) := by
  refine ⟨?_, by simp [validateRaAndFrame, Instr.bound, List.filterMap_cons], ?_, by simp [validateRaAndFrame]⟩
  · simp [validateRaAndFrame, Instr.fits, h]; decide
  · intro i hi l o ho
    simp only [validateRaAndFrame, List.mem_cons, List.not_mem_nil, or_false] at hi
    rcases hi with rfl | rfl | rfl | rfl | rfl | rfl | rfl | rfl | rfl | rfl | rfl | rfl | rfl | rfl | rfl | rfl |
      rfl | rfl | rfl <;>
      simp only [Instr.jump, reduceCtorEq, Option.some.injEq, Prod.mk.injEq] at ho <;>
      (obtain ⟨rfl, _⟩ := ho; simp [validateRaAndFrame])

theorem body_sound {fl : JitFlags} {plain frame : Reg → Reg → Temps → Code} {t : Temps} {c : Code}
    (h : body fl plain frame t = some c) (hp : ∀ sp ra, FitBody (plain sp ra t)) (hf : ∀ sp ra, FitBody (frame sp ra t)) :
    FitBody c := by
  simp only [body, Option.bind_eq_bind, Option.bind_eq_some_iff, Option.pure_def] at h
  obtain ⟨sp, _, ra, _, h⟩ := h
  split at h
  · split at h
    · cases h; exact hf ..
    · cases h; exact hp ..
  · cases h; exact sound_nil

/-- The offset is an `int`, with room for what the snippet pushes (`/repo/src/jit.cc:33, 88, 94`). -/
def OffsetOk (d : Int) : Prop := -2147483648 ≤ d ∧ d + 24 < 2147483648

theorem assemble_parts {base : Int} {c1 c2 c3 : Code} {t : Temps} (h1 : Saves base c1 t) (h2 : FitBody c2)
    (h3 : restoreTemps t = some c3) : ∃ bs, assemble (c1 ++ c2 ++ c3) = some bs ∧ bs.length ≤ 405 := by
  obtain ⟨h3, h4⟩ := restoreTemps_moves h3
  have := h1.2.1
  have := h2.2.2.2
  obtain ⟨bs, h5, h6⟩ := assemble_around h1.1 h3 h2.1 h2.2.1 h2.2.2.1 (by simp only [List.length_append]; omega)
  exact ⟨bs, h5, by simp only [List.length_append] at h6; omega⟩

theorem saves_fits {base : Int} {c : Code} {t : Temps} (h : Saves base c t) (hb : OffsetOk base) :
    fits32 t.spOffset = true := by
  have := h.2.1
  rw [h.2.2]
  simp only [fits32, decide_eq_true_eq]
  unfold OffsetOk at hb
  omega

theorem push_assembles {fl : JitFlags} {sm : Option JitSummary} {useOrig useFixed : Bool} {height : Int} {bs ts : Nat}
    {code : Code} {mid : Option MoveInst} (hm : pushMove sm useOrig useFixed bs ts = some mid)
    (h : jitStackPush fl sm useOrig height useFixed bs ts = some code) (hd : OffsetOk (pushDisp sm mid height)) :
    ∃ b, assemble code = some b ∧ b.length ≤ 405 := by
  unfold jitStackPush at h
  split at h
  · cases h; exact ⟨[], rfl, by simp⟩
  · rename_i he
    simp only [hm, Option.bind_eq_bind, Option.bind_some, stackPushWith, if_neg he, Option.bind_eq_some_iff,
      Option.pure_def, Option.some.injEq, Prod.exists] at h
    obtain ⟨c1, t, h1, c2, h2, c3, h3, rfl⟩ := h
    have hs : Saves (pushDisp sm mid height) c1 t := by
      unfold pushTemps at h1
      unfold pushDisp
      split at h1
      · exact useSpecified_saves h1
      · exact saveTemps_saves h1
      · exact saveTemps_saves h1
    have hf := saves_fits hs hd
    exact assemble_parts hs (body_sound h2 (fun _ _ => saveRa_sound hf) (fun _ _ => saveRaAndFrame_sound hf)) h3

theorem pop_assembles {fl : JitFlags} {sm : Option JitSummary} {useOrig : Bool} {bs addr : Nat}
    {code : Code} {mid : Option MoveInst} (hm : popMove sm useOrig bs = some mid)
    (h : jitStackPop fl sm useOrig bs addr = some code) (hd : OffsetOk (popDisp mid)) :
    ∃ b, assemble code = some b ∧ b.length ≤ 405 := by
  unfold jitStackPop at h
  split at h
  · cases h; exact ⟨[], rfl, by simp⟩
  · rename_i he
    simp only [hm, Option.bind_eq_bind, Option.bind_some, stackPopWith, if_neg he, Option.bind_eq_some_iff,
      Option.pure_def, Option.some.injEq, Prod.exists] at h
    obtain ⟨c1, t, h1, c2, h2, c3, h3, rfl⟩ := h
    have hs : Saves (popDisp mid) c1 t := by
      unfold popTemps at h1
      unfold popDisp
      split at h1
      · simpa using useSpecified_saves h1
      · split at h1
        · exact saveTemps_saves h1
        · exact saveTemps_saves h1
      · exact saveTemps_saves h1
    have hf := saves_fits hs hd
    exact assemble_parts hs (body_sound h2 (fun _ _ => validateRa_sound hf) (fun _ _ => validateRaAndFrame_sound hf)) h3

theorem regPush_assembles {fl : JitFlags} {sm : JitSummary} {height : Int} {code : Code}
    (h : jitRegisterPush fl sm height = some code) (hd : OffsetOk height) : ∃ b, assemble code = some b ∧ b.length ≤ 405 := by
  have hf : fits32 height = true := by
    simp only [fits32, decide_eq_true_eq]; unfold OffsetOk at hd; omega
  unfold jitRegisterPush at h
  split at h
  · cases h; exact ⟨[], rfl, by simp⟩
  · simp only [Option.bind_eq_bind, Option.bind_eq_some_iff, Option.pure_def, Option.some.injEq, Prod.exists] at h
    obtain ⟨_, r, _, rfl⟩ := h
    split
    · obtain ⟨b, h1, h2⟩ := assemble_ok (code := [.storeGs 8 r] ++ [.load r .rsp height])
        (by simp [Instr.fits, hf]; decide) (by simp [Instr.bound, List.filterMap_cons]) (by simp [Instr.jump]) (by simp)
      exact ⟨b, h1, by simp at h2; omega⟩
    · obtain ⟨b, h1, h2⟩ := assemble_ok (code := [.storeGs 8 r] ++ [])
        (by simp [Instr.fits]; decide) (by simp [Instr.bound, List.filterMap_cons]) (by simp [Instr.jump]) (by simp)
      exact ⟨b, h1, by simp at h2; omega⟩

theorem regPop_assembles {fl : JitFlags} {sm : JitSummary} {code : Code} (h : jitRegisterPop fl sm = some code) :
    ∃ b, assemble code = some b ∧ b.length ≤ 405 := by
  unfold jitRegisterPop at h
  split at h
  · cases h; exact ⟨[], rfl, by simp⟩
  · simp only [Option.bind_eq_bind, Option.bind_eq_some_iff, Option.pure_def, Prod.exists] at h
    obtain ⟨name, r, _, h⟩ := h
    split at h
    · simp only [Option.bind_eq_some_iff, Prod.exists, Option.some.injEq] at h
      obtain ⟨c1, t, h1, sp, _, ra, _, c3, h3, rfl⟩ := h
      obtain ⟨a1, a2, a3⟩ := saveTemps_saves h1
      obtain ⟨b1, b2⟩ := restoreTemps_moves h3
      obtain ⟨s1, s2, s3, s4⟩ := validateRa_sound (sp := sp) (ra := ra)
        (saves_fits ⟨a1, a2, a3⟩ (by simp [OffsetOk] : OffsetOk 0))
      have hm : ∀ i : Instr, i.moves = true → i.fits = true ∧ i.bound = none ∧ i.jump = none := by
        intro i h
        cases i <;> first | cases h; done | exact ⟨rfl, rfl, rfl⟩
      have hmf : ∀ c : Code, (∀ i ∈ c, i.moves = true) → c.filterMap Instr.bound = [] := fun c h =>
        List.filterMap_eq_nil_iff.mpr fun i hi => (hm i (h i hi)).2.1
      obtain ⟨b, h5, h6⟩ := assemble_ok (code := [.cmpMem r .rsp 0, .je .success] ++ c1 ++ validateRa sp ra t ++ c3 ++
        [.bind .success, .loadGs r 8]) (fun i hi => by
          simp only [List.mem_append, List.mem_cons, List.not_mem_nil, or_false] at hi
          rcases hi with ((((rfl | rfl) | hi) | hi) | hi) | rfl | rfl
          · rfl
          · rfl
          · exact (hm i (a1 i hi)).1
          · exact s1 i hi
          · exact (hm i (b1 i hi)).1
          · rfl
          · simp only [Instr.fits]; decide)
        (by
          simp only [List.filterMap_append, hmf c1 a1, hmf c3 b1]
          simp [validateRa, Instr.bound, List.filterMap_cons])
        (fun i hi l o ho => by
          simp only [List.mem_append, List.mem_cons, List.not_mem_nil, or_false] at hi ⊢
          rcases hi with ((((rfl | rfl) | hi) | hi) | hi) | rfl | rfl
          · cases ho
          · cases ho; simp
          · rw [(hm i (a1 i hi)).2.2] at ho; cases ho
          · exact .inl (.inl (.inr (s3 i hi l o ho)))
          · rw [(hm i (b1 i hi)).2.2] at ho; cases ho
          · cases ho
          · cases ho)
        (by simp only [List.length_append, List.length_cons, List.length_nil]; omega)
      refine ⟨b, h5, ?_⟩
      have : (validateRa sp ra t).length = 13 := rfl
      simp only [List.length_append, List.length_cons, List.length_nil] at h6
      omega
    · cases h
      obtain ⟨b, h1, h2⟩ := assemble_ok (code := [.loadGs r 8])
        (by simp [Instr.fits]; decide) (by simp [Instr.bound, List.filterMap_cons]) (by simp [Instr.jump]) (by simp)
      exact ⟨b, h1, by simp at h2; omega⟩

end Verif
