import Verif.MachineCode

/-!
Lemmas about machine code: decoding an encoded instruction gives it back.
-/

namespace Verif

theorem fieldByte_toNat {h m l : Nat} (hh : h < 4) (hm : m < 8) (hl : l < 8) :
    (fieldByte h m l).toNat = 64 * h + 8 * m + l := by
  simp only [fieldByte, BitVec.toNat_ofNat]
  omega

theorem hi2_fieldByte {h m l : Nat} (hh : h < 4) (hm : m < 8) (hl : l < 8) : hi2 (fieldByte h m l) = h := by
  rw [hi2, fieldByte_toNat hh hm hl]; omega

theorem mid3_fieldByte {h m l : Nat} (hh : h < 4) (hm : m < 8) (hl : l < 8) : mid3 (fieldByte h m l) = m := by
  rw [mid3, fieldByte_toNat hh hm hl]; omega

theorem lo3_fieldByte {h m l : Nat} (hh : h < 4) (hm : m < 8) (hl : l < 8) : lo3 (fieldByte h m l) = l := by
  rw [lo3, fieldByte_toNat hh hm hl]; omega

theorem rexByte_of (w : Bool) (r b : Reg) : (rexByte w r.num b.num).toNat / 16 = 4 ∧
    Rex.of (rexByte w r.num b.num) = ⟨w, decide (8 ≤ r.num), false, decide (8 ≤ b.num)⟩ := by
  cases w <;> cases r <;> cases b <;> decide

theorem regAt_num (r : Reg) : regAt (decide (8 ≤ r.num)) (r.num % 8) = r := by
  cases r <;> rfl

theorem Reg.num_lt (r : Reg) : r.num < 16 := by cases r <;> decide

theorem imm8_ofInt {d : Int} (h : fits8 d = true) (rest : List Byte) : imm8 (BitVec.ofInt 8 d :: rest) = some d := by
  simp only [fits8, decide_eq_true_eq] at h
  simp only [imm8, BitVec.toInt_ofInt, Option.some.injEq]
  rw [Int.bmod_eq_of_le] <;> omega

theorem disp32_append (v : BitVec 32) :
    v.extractLsb' 24 8 ++ v.extractLsb' 16 8 ++ v.extractLsb' 8 8 ++ v.extractLsb' 0 8 = v := by
  ext i hi
  simp only [BitVec.getElem_append, BitVec.getElem_extractLsb']
  grind

theorem imm32_disp32 {d : Int} (h : fits32 d = true) (rest : List Byte) : imm32 (disp32 d ++ rest) = some d := by
  simp only [fits32, decide_eq_true_eq] at h
  simp only [imm32, disp32, List.cons_append, List.nil_append, disp32_append, BitVec.toInt_ofInt, Option.some.injEq]
  rw [Int.bmod_eq_of_le] <;> omega

theorem operandOf_memBytes {rex : Rex} {b : Reg} (hb : rex.b = decide (8 ≤ b.num)) (hx : rex.x = false)
    {reg : Nat} {d : Int} (hd : fits32 d = true) (rest : List Byte) :
    operandOf rex (memBytes reg b d ++ rest) =
      some (reg % 8, .mem (some b) d, (memBytes reg b d).length) ∧
    (memBytes reg b d ++ rest).drop (memBytes reg b d).length = rest := by
  refine ⟨?_, by simp⟩
  have hr : reg % 8 < 8 := Nat.mod_lt _ (by decide)
  have hm : b.num % 8 < 8 := Nat.mod_lt _ (by decide)
  have hreg : regAt rex.b (b.num % 8) = b := by rw [hb]; exact regAt_num b
  have hs1 : mid3 36#8 = 4 := by decide
  have hs2 : lo3 36#8 = 4 := by decide
  have hreg4 : b.num % 8 = 4 → regAt rex.b 4 = b := fun e => by rw [← hreg, e]
  unfold memBytes
  dsimp only
  split
  · rename_i h0
    by_cases h4 : b.num % 8 = 4
    · simp [operandOf, hi2_fieldByte, mid3_fieldByte, lo3_fieldByte, hr, baseOf, h4, hs1, hs2, hx, dispOf, hreg4 h4, h0.1]
    · simp [operandOf, hi2_fieldByte, mid3_fieldByte, lo3_fieldByte, hr, hm, baseOf, h4, h0.2, dispOf, hreg, h0.1]
  · split
    · rename_i h0 h8
      have := imm8_ofInt h8 rest
      by_cases h4 : b.num % 8 = 4
      · simp [operandOf, hi2_fieldByte, mid3_fieldByte, lo3_fieldByte, hr, baseOf, h4, hs1, hs2, hx, dispOf, hreg4 h4, this]
      · simp [operandOf, hi2_fieldByte, mid3_fieldByte, lo3_fieldByte, hr, hm, baseOf, h4, dispOf, hreg, this]
    · have := imm32_disp32 hd rest
      have hl : (disp32 d).length = 4 := rfl
      by_cases h4 : b.num % 8 = 4
      · simp [operandOf, hi2_fieldByte, mid3_fieldByte, lo3_fieldByte, hr, baseOf, h4, hs1, hs2, hx, dispOf, hreg4 h4, this, hl]
      · simp [operandOf, hi2_fieldByte, mid3_fieldByte, lo3_fieldByte, hr, hm, baseOf, h4, dispOf, hreg, this, hl]

theorem operandOf_absBytes {rex : Rex} (hx : rex.x = false) {reg : Nat} {d : Int} (hd : fits32 d = true)
    (rest : List Byte) :
    operandOf rex (absBytes reg d ++ rest) = some (reg % 8, .mem none d, 6) ∧
    (absBytes reg d ++ rest).drop 6 = rest := by
  have hr : reg % 8 < 8 := Nat.mod_lt _ (by decide)
  have hs1 : mid3 37#8 = 4 := by decide
  have hs2 : lo3 37#8 = 5 := by decide
  have := imm32_disp32 hd rest
  refine ⟨?_, rfl⟩
  simp [absBytes, operandOf, hi2_fieldByte, mid3_fieldByte, lo3_fieldByte, hr, baseOf, hs1, hs2, hx, dispOf, this]

theorem operandOf_reg (rex : Rex) {r : Reg} (hb : rex.b = decide (8 ≤ r.num)) (rest : List Byte) :
    operandOf rex (fieldByte 3 5 (r.num % 8) :: rest) = some (5, .reg r, 1) := by
  have hm : r.num % 8 < 8 := Nat.mod_lt _ (by decide)
  have hreg : regAt rex.b (r.num % 8) = r := by rw [hb]; exact regAt_num r
  simp [operandOf, hi2_fieldByte, mid3_fieldByte, lo3_fieldByte, hm, hreg]

theorem rmBytes_length {op : Byte} {r b : Reg} {d : Int} {bs : List Byte} (h : rmBytes op r b d = some bs) :
    bs.length ≤ 15 := by
  unfold rmBytes at h
  split at h <;> cases h
  simp only [List.length_cons, memBytes]
  repeat' split
  all_goals simp [disp32]

theorem decode_rm {op : Byte} {r b : Reg} {d : Int} {bs : List Byte} (h : rmBytes op r b d = some bs)
    (hop : op.toNat = 0x8B ∨ op.toNat = 0x89 ∨ op.toNat = 0x8D ∨ op.toNat = 0x3B) {i : Instr}
    (hi : regMem false op.toNat r (.mem (some b) d) = some i) (rest : List Byte) :
    decode (bs ++ rest) = some (.plain i, bs.length) := by
  unfold rmBytes at h
  split at h
  · rename_i hd
    cases h
    obtain ⟨h1, h2⟩ := rexByte_of true r b
    have h65 : ¬ (rexByte true r.num b.num).toNat = 0x65 := by omega
    obtain ⟨h3, _⟩ := operandOf_memBytes (rex := ⟨true, decide (8 ≤ r.num), false, decide (8 ≤ b.num)⟩) (b := b)
      rfl rfl (reg := r.num) hd rest
    simp only [List.cons_append, decode, h65, if_false, decodeRex, h1, if_true, h2, decodeOp, hop, h3, regAt_num,
      Option.bind_eq_bind, Option.bind_some, hi, List.length_cons]
    rfl
  · cases h

theorem immBytes_op (i : Int) : (immBytes i).1.toNat = 0x83 ∨ (immBytes i).1.toNat = 0x81 := by
  unfold immBytes
  split
  · exact .inl rfl
  · exact .inr rfl

/-- An instruction of the group `81`, `83` behind its prefixes. -/
theorem decodeOp_imm {plain gs : Bool} {rex : Rex} {v : Int} (hv : fits32 v = true) {xs rest : List Byte} {ext : Nat}
    {x : Operand} (hx : operandOf rex (xs ++ ((immBytes v).2 ++ rest)) = some (ext, x, xs.length)) {i : Instr}
    (hi : group1 gs rex.w ext v x = some i) :
    decodeOp plain gs rex (immBytes v).1.toNat (xs ++ ((immBytes v).2 ++ rest)) =
      some (.plain i, (xs ++ (immBytes v).2).length) := by
  have hd : (xs ++ ((immBytes v).2 ++ rest)).drop xs.length = (immBytes v).2 ++ rest := by simp
  by_cases h8 : fits8 v = true
  · have e : immBytes v = (0x83, [BitVec.ofInt 8 v]) := by simp [immBytes, h8]
    have h := imm8_ofInt h8 rest
    simp only [e, List.cons_append, List.nil_append] at hx hd ⊢
    simp only [decodeOp, show ((0x83 : Byte).toNat) = 0x83 from rfl, if_neg (by decide : ¬ (0x83 = 0x8B ∨ 0x83 = 0x89 ∨ 0x83 = 0x8D ∨ 0x83 = 0x3B)),
      if_true, hx, hd, Option.bind_eq_bind, Option.bind_some, h, hi,
      List.length_append, List.length_cons, List.length_nil]
    rfl
  · have e : immBytes v = (0x81, disp32 v) := by simp [immBytes, h8]
    have h := imm32_disp32 hv rest
    simp only [e] at hx hd ⊢
    simp only [decodeOp, show ((0x81 : Byte).toNat) = 0x81 from rfl, if_neg (by decide : ¬ (0x81 = 0x8B ∨ 0x81 = 0x89 ∨ 0x81 = 0x8D ∨ 0x81 = 0x3B)),
      if_neg (by decide : ¬ 0x81 = 0x83),
      if_true, hx, hd, Option.bind_eq_bind, Option.bind_some, h, hi, List.length_append]
    rfl

theorem immBytes_length (v : Int) : (immBytes v).2.length ≤ 4 := by
  unfold immBytes
  split <;> simp [disp32]

theorem decode_gs {op : Byte} {r : Reg} {d : Int} (hd : fits32 d = true)
    (hop : op.toNat = 0x8B ∨ op.toNat = 0x89) {i : Instr}
    (hi : regMem true op.toNat r (.mem none d) = some i) (rest : List Byte) :
    decode (0x65 :: rexByte true r.num 0 :: op :: absBytes r.num d ++ rest) = some (.plain i, 9) := by
  obtain ⟨h1, h2⟩ := rexByte_of true r .rax
  obtain ⟨h3, _⟩ := operandOf_absBytes (rex := ⟨true, decide (8 ≤ r.num), false, false⟩) rfl (reg := r.num) hd rest
  have hop' : op.toNat = 0x8B ∨ op.toNat = 0x89 ∨ op.toNat = 0x8D ∨ op.toNat = 0x3B := by
    rcases hop with h | h
    · exact .inl h
    · exact .inr (.inl h)
  change (rexByte true r.num 0).toNat / 16 = 4 at h1
  change Rex.of (rexByte true r.num 0) = ⟨true, decide (8 ≤ r.num), false, false⟩ at h2
  simp only [List.cons_append, decode, show ((0x65 : Byte).toNat) = 0x65 from rfl, if_true, decodeRex, h1, h2, decodeOp, hop', h3,
    regAt_num, Option.bind_eq_bind, Option.bind_some, hi]
  rfl

theorem decode_gsImm {reg : Nat} {d v : Int} (hd : fits32 d = true) (hv : fits32 v = true) (hr : reg < 8) {i : Instr}
    (hi : group1 true true reg v (.mem none d) = some i) (rest : List Byte) :
    decode (0x65 :: rexByte true 0 0 :: (immBytes v).1 :: absBytes reg d ++ (immBytes v).2 ++ rest) =
      some (.plain i, (0x65 :: rexByte true 0 0 :: (immBytes v).1 :: absBytes reg d ++ (immBytes v).2).length) := by
  obtain ⟨h1, h2⟩ := rexByte_of true .rax .rax
  obtain ⟨h3, _⟩ := operandOf_absBytes (rex := ⟨true, false, false, false⟩) rfl (reg := reg) hd ((immBytes v).2 ++ rest)
  rw [Nat.mod_eq_of_lt hr] at h3
  have h4 := decodeOp_imm (plain := false) (gs := true) hv (x := .mem none d) (xs := absBytes reg d) h3 hi
  change (rexByte true 0 0).toNat / 16 = 4 at h1
  change Rex.of (rexByte true 0 0) = ⟨true, false, false, false⟩ at h2
  simp only [List.cons_append, List.append_assoc, decode, show ((0x65 : Byte).toNat) = 0x65 from rfl, if_true, decodeRex, h1, h2, h4,
    Option.map_some, List.length_cons]

/-- **Decoding an encoded instruction gives it back**, whatever stands behind it. -/
theorem decode_encode {i : Instr} {bs : List Byte} (h : i.encode = some bs) (rest : List Byte) :
    decode (bs ++ rest) = some (.plain i, bs.length) := by
  cases i with
  | push r => cases h; cases r <;> rfl
  | pop r => cases h; cases r <;> rfl
  | pushfq => cases h; rfl
  | popfq => cases h; rfl
  | load r b d => exact decode_rm h (by decide) rfl rest
  | store b d r => exact decode_rm h (by decide) rfl rest
  | lea r b d => exact decode_rm h (by decide) rfl rest
  | cmpMem r b d => exact decode_rm h (by decide) rfl rest
  | loadGs r d =>
    simp only [Instr.encode] at h
    split at h <;> cases h
    rename_i hd
    exact decode_gs hd (by decide) rfl rest
  | storeGs d r =>
    simp only [Instr.encode] at h
    split at h <;> cases h
    rename_i hd
    exact decode_gs hd (by decide) rfl rest
  | addGs d v =>
    simp only [Instr.encode] at h
    split at h <;> cases h
    rename_i hd
    exact decode_gsImm hd.1 hd.2 (by decide) rfl rest
  | subGs d v =>
    simp only [Instr.encode] at h
    split at h <;> cases h
    rename_i hd
    exact decode_gsImm hd.1 hd.2 (by decide) rfl rest
  | subImm r v =>
    simp only [Instr.encode] at h
    split at h <;> cases h
    rename_i hv
    obtain ⟨h1, h2⟩ := rexByte_of true .rax r
    change (rexByte true 0 r.num).toNat / 16 = 4 at h1
    change Rex.of (rexByte true 0 r.num) = ⟨true, false, false, decide (8 ≤ r.num)⟩ at h2
    have h65 : ¬ (rexByte true 0 r.num).toNat = 0x65 := by omega
    have h3 := operandOf_reg ⟨true, false, false, decide (8 ≤ r.num)⟩ rfl ((immBytes v).2 ++ rest)
    have h4 := decodeOp_imm (plain := false) (gs := false) hv (x := .reg r) (xs := [fieldByte 3 5 (r.num % 8)]) h3 rfl
    simp only [List.cons_append, List.nil_append] at h4
    simp only [List.cons_append, decode, h65, if_false, decodeRex, h1, if_true, h2, h4, Option.map_some, List.length_cons]
  | cmpDword b v =>
    simp only [Instr.encode] at h
    split at h <;> cases h
    rename_i hv
    by_cases hb : b.num < 8
    · have h3 := (operandOf_memBytes (rex := {}) (b := b) (by simp; omega) rfl (reg := 7) (d := 0) (by decide)
        ((immBytes v).2 ++ rest)).1
      have h4 := decodeOp_imm (plain := true) (gs := false) hv (x := .mem (some b) 0) (xs := memBytes 7 b 0) h3 rfl
      have h65 : ¬ (immBytes v).1.toNat = 0x65 ∧ ¬ (immBytes v).1.toNat / 16 = 4 := by
        rcases immBytes_op v with h | h <;> omega
      simp only [hb, if_true, List.nil_append, List.cons_append, List.append_assoc, decode, h65.1, if_false, decodeRex, h65.2,
        Bool.not_false, h4, Option.map_some, List.length_cons]
    · obtain ⟨h1, h2⟩ := rexByte_of false .rax b
      change (rexByte false 0 b.num).toNat / 16 = 4 at h1
      change Rex.of (rexByte false 0 b.num) = ⟨false, false, false, decide (8 ≤ b.num)⟩ at h2
      have h65 : ¬ (rexByte false 0 b.num).toNat = 0x65 := by omega
      have h3 := (operandOf_memBytes (rex := ⟨false, false, false, decide (8 ≤ b.num)⟩) (b := b) rfl rfl (reg := 7) (d := 0) (by decide)
        ((immBytes v).2 ++ rest)).1
      have h4 := decodeOp_imm (plain := false) (gs := false) hv (x := .mem (some b) 0) (xs := memBytes 7 b 0) h3 rfl
      simp only [hb, if_false, List.nil_append, List.cons_append, List.append_assoc, decode, h65, decodeRex, h1, if_true, h2,
        h4, Option.map_some, List.length_cons]
  | je l => cases h
  | jne l => cases h
  | jmp l => cases h
  | bind l => cases h
  | illegal => cases h

theorem encode_length {i : Instr} {bs : List Byte} (h : i.encode = some bs) : bs.length ≤ 15 := by
  cases i with
  | push r => cases h; cases r <;> decide
  | pop r => cases h; cases r <;> decide
  | pushfq => cases h; decide
  | popfq => cases h; decide
  | load r b d => exact rmBytes_length h
  | store b d r => exact rmBytes_length h
  | lea r b d => exact rmBytes_length h
  | cmpMem r b d => exact rmBytes_length h
  | loadGs r d => simp only [Instr.encode] at h; split at h <;> cases h; exact (by decide : 9 ≤ 15)
  | storeGs d r => simp only [Instr.encode] at h; split at h <;> cases h; exact (by decide : 9 ≤ 15)
  | addGs d v =>
    simp only [Instr.encode] at h; split at h <;> cases h
    have := immBytes_length v
    simp [absBytes, disp32]; omega
  | subGs d v =>
    simp only [Instr.encode] at h; split at h <;> cases h
    have := immBytes_length v
    simp [absBytes, disp32]; omega
  | subImm r v =>
    simp only [Instr.encode] at h; split at h <;> cases h
    have := immBytes_length v
    simp; omega
  | cmpDword b v =>
    simp only [Instr.encode] at h; split at h <;> cases h
    have := immBytes_length v
    have h2 : (memBytes 7 b 0).length ≤ 6 := by unfold memBytes; dsimp only; repeat' split
                                                all_goals simp [disp32]
    split <;> simp <;> omega
  | je l => cases h
  | jne l => cases h
  | jmp l => cases h
  | bind l => cases h
  | illegal => cases h

theorem window_stands {text : W → Byte} {a : W} {bs : List Byte} (h : Stands text a bs) (hl : bs.length ≤ 15) :
    ∃ rest, window text a = bs ++ rest := by
  refine ⟨(window text a).drop bs.length, ?_⟩
  apply List.ext_getElem
  · simp [window]; omega
  · intro i h1 h2
    rw [List.getElem_append]
    split
    · rename_i hi
      rw [← h i hi]
      simp [window]
    · rename_i hi
      rw [List.getElem_drop]
      congr 1
      omega

theorem Stands.left {text : W → Byte} {a : W} {xs ys : List Byte} (h : Stands text a (xs ++ ys)) :
    Stands text a xs := by
  intro i hi
  rw [h i (by simp; omega), List.getElem_append_left hi]

theorem Stands.right {text : W → Byte} {a : W} {xs ys : List Byte} (h : Stands text a (xs ++ ys)) :
    Stands text (a + BitVec.ofNat 64 xs.length) ys := by
  intro i hi
  have := h (xs.length + i) (by simp; omega)
  rw [List.getElem_append_right (by omega)] at this
  rw [BitVec.add_assoc, ← BitVec.ofNat_add, this]
  congr 1
  omega

/-! ## Code which stands somewhere -/

/-- Instructions after which the next one follows. -/
def Instr.straight : Instr → Bool
  | .je _ | .jne _ | .jmp _ | .bind _ | .illegal => false
  | _ => true

theorem Instr.straight_next {i : Instr} (h : i.straight = true) (s : State) : ∃ s', exec i s = .next s' := by
  cases i <;> first | exact ⟨_, rfl⟩ | cases h

theorem Instr.straight_binds {i : Instr} (h : i.straight = true) (l : Label) : i.binds l = false := by
  cases i <;> first | rfl | cases h

theorem Instr.encode_straight {i : Instr} {bs : List Byte} (h : i.encode = some bs) : i.straight = true := by
  cases i <;> first | rfl | cases h

/-- The code `k` stands at `a + pos`, in any encoding, and ends at `a + len`; `L` says where its labels are,
and `Q` what is known of the code behind an embedded byte. -/
inductive Placed (text : W → Byte) (L : Label → Nat) (Q : Nat → Code → Prop) (a : W) (len : Nat) : Nat → Code → Prop
  | nil : Placed text L Q a len len []
  | plain {pos i k n} : decode (window text (a + BitVec.ofNat 64 pos)) = some (.plain i, n) → 0 < n →
      i.straight = true → Placed text L Q a len (pos + n) k → Placed text L Q a len pos (i :: k)
  | je {pos l k n rel} : decode (window text (a + BitVec.ofNat 64 pos)) = some (.je rel, n) → 0 < n →
      (L l : Int) = pos + n + rel → Placed text L Q a len (pos + n) k → Placed text L Q a len pos (.je l :: k)
  | jne {pos l k n rel} : decode (window text (a + BitVec.ofNat 64 pos)) = some (.jne rel, n) → 0 < n →
      (L l : Int) = pos + n + rel → Placed text L Q a len (pos + n) k → Placed text L Q a len pos (.jne l :: k)
  | jmp {pos l k n rel} : decode (window text (a + BitVec.ofNat 64 pos)) = some (.jmp rel, n) → 0 < n →
      (L l : Int) = pos + n + rel → Placed text L Q a len (pos + n) k → Placed text L Q a len pos (.jmp l :: k)
  | bind {pos l k} : L l = pos → Placed text L Q a len pos k → Placed text L Q a len pos (.bind l :: k)
  | illegal {pos k} : decode (window text (a + BitVec.ofNat 64 pos)) = some (.evex, 1) → Q (pos + 1) k →
      Placed text L Q a len (pos + 1) k → Placed text L Q a len pos (.illegal :: k)

section
variable {text : W → Byte} {L : Label → Nat} {Q : Nat → Code → Prop} {a : W} {len : Nat}

theorem Placed.le {pos : Nat} {k : Code} (h : Placed text L Q a len pos k) : pos ≤ len := by
  induction h <;> omega

theorem Placed.target {pos : Nat} {w k : Code} {l : Label} (h : Placed text L Q a len pos w)
    (ht : target l w = some k) : Placed text L Q a len (L l) k := by
  induction h with
  | nil => cases ht
  | plain h1 _ h2 _ ih =>
    simp only [Verif.target, Instr.straight_binds h2, Bool.false_eq_true, if_false] at ht
    exact ih ht
  | je _ _ _ _ ih => exact ih ht
  | jne _ _ _ _ ih => exact ih ht
  | jmp _ _ _ _ ih => exact ih ht
  | @bind pos l' k' h1 h2 ih =>
    by_cases hb : l = l'
    · subst hb
      simp only [Verif.target, Instr.binds, beq_self_eq_true, if_true] at ht
      cases ht
      rw [h1]; exact h2
    · simp only [Verif.target, Instr.binds, beq_iff_eq, hb, if_false] at ht
      exact ih ht
  | illegal _ _ _ ih => exact ih ht

theorem jump_addr {pos n q : Nat} {rel : Int} (h : (q : Int) = pos + n + rel) :
    a + BitVec.ofNat 64 pos + BitVec.ofNat 64 n + BitVec.ofInt 64 rel = a + BitVec.ofNat 64 q := by
  have : BitVec.ofInt 64 (q : Int) = BitVec.ofNat 64 pos + BitVec.ofNat 64 n + BitVec.ofInt 64 rel := by
    rw [h, BitVec.ofInt_add, BitVec.ofInt_add, BitVec.ofInt_natCast, BitVec.ofInt_natCast]
  rw [BitVec.ofInt_natCast] at this
  rw [this]
  simp only [BitVec.add_assoc]

theorem add_ofNat (x : W) (m n : Nat) : x + BitVec.ofNat 64 m + BitVec.ofNat 64 n = x + BitVec.ofNat 64 (m + n) := by
  rw [BitVec.add_assoc, ← BitVec.ofNat_add]

theorem Executes.trans {avx : Bool} {text : W → Byte} {P : W → Prop} {a a1 a2 : W} {s s1 s2 : State}
    (h : Executes avx text P a s a1 s1) (h' : Executes avx text P a1 s1 a2 s2) : Executes avx text P a s a2 s2 := by
  induction h with
  | refl => exact h'
  | step h1 h2 _ ih => exact .step h1 h2 (ih h')

/-- How a snippet which ends with the outcome `o` ends as machine code. -/
def EndsBytes (avx : Bool) (text : W → Byte) (Q : Nat → Code → Prop) (a : W) (len pos : Nat) (w : Code) (s : State) :
    Outcome → Prop
  | .exit s' => Executes avx text (Inside a len) (a + BitVec.ofNat 64 pos) s (a + BitVec.ofNat 64 len) s'
  | .trap s' => ∃ p k, p < len ∧ Executes avx text (Inside a len) (a + BitVec.ofNat 64 pos) s (a + BitVec.ofNat 64 p) s' ∧
      decode (window text (a + BitVec.ofNat 64 p)) = some (.evex, 1) ∧ Q (p + 1) k ∧ .illegal :: k <:+ w
  | .stuck => True

theorem EndsBytes.step {avx : Bool} {pos p1 : Nat} {w : Code} {s s1 : State} {o : Outcome} (hp : pos < len)
    (h : executeAt avx text (a + BitVec.ofNat 64 pos) s = .next (a + BitVec.ofNat 64 p1) s1)
    (he : EndsBytes avx text Q a len p1 w s1 o) : EndsBytes avx text Q a len pos w s o := by
  cases o with
  | exit s' => exact Executes.step ⟨pos, hp, rfl⟩ h he
  | trap s' =>
    obtain ⟨p, k, h1, h2, h3⟩ := he
    exact ⟨p, k, h1, Executes.step ⟨pos, hp, rfl⟩ h h2, h3⟩
  | stuck => trivial

theorem target_suffix {l : Label} {w k : Code} (h : target l w = some k) : k <:+ w := by
  induction w with
  | nil => cases h
  | cons i w ih =>
    simp only [Verif.target] at h
    split at h
    · cases h; exact List.suffix_cons ..
    · exact (ih h).trans (List.suffix_cons ..)

/-- **Simulation.** -/
theorem Placed.run {avx : Bool} {w : Code} (hw : Placed text L Q a len 0 w) : ∀ (n : Nat) (pos : Nat) (k : Code) (s : State)
    (o : Outcome), Placed text L Q a len pos k → k <:+ w → Verif.run w n k s = some o →
    EndsBytes avx text Q a len pos w s o := by
  intro n
  induction n with
  | zero => intro pos k s o _ _ h; cases h
  | succ n ih =>
    intro pos k s o hk hs h
    have suf : ∀ {i k'}, i :: k' <:+ w → k' <:+ w := fun h => (List.suffix_cons ..).trans h
    have hgo : ∀ {l : Label} {s1 : State}, (match Verif.target l w with
        | some k' => Verif.run w n k' s1 | none => some .stuck) = some o →
        EndsBytes avx text Q a len (L l) w s1 o := by
      intro l s1 h
      split at h
      · rename_i k' ht
        exact ih _ _ _ _ (hw.target ht) (target_suffix ht) h
      · cases h; trivial
    cases hk with
    | nil => cases h; exact .refl
    | @plain _ i k' m h1 h2 h3 h4 =>
      obtain ⟨s1, h5⟩ := Instr.straight_next h3 s
      have hle := h4.le
      simp only [Verif.run, h5] at h
      refine EndsBytes.step (p1 := pos + m) (by omega) ?_ (ih _ _ _ _ h4 (suf hs) h)
      simp only [executeAt, h1, h5, add_ofNat]
    | @je _ l k' m rel h1 h2 h3 h4 =>
      have hle := h4.le
      by_cases hz : s.zf = true
      · simp only [Verif.run, exec, hz, if_true] at h
        refine EndsBytes.step (p1 := L l) (s1 := s) (by omega) ?_ (hgo h)
        simp only [executeAt, h1, hz, if_true, jump_addr h3]
      · simp only [Verif.run, exec, hz, if_false, Bool.false_eq_true] at h
        refine EndsBytes.step (p1 := pos + m) (by omega) ?_ (ih _ _ _ _ h4 (suf hs) h)
        simp [executeAt, h1, hz, add_ofNat]
    | @jne _ l k' m rel h1 h2 h3 h4 =>
      have hle := h4.le
      by_cases hz : s.zf = true
      · simp only [Verif.run, exec, hz, if_true] at h
        refine EndsBytes.step (p1 := pos + m) (by omega) ?_ (ih _ _ _ _ h4 (suf hs) h)
        simp [executeAt, h1, hz, add_ofNat]
      · simp only [Verif.run, exec, hz, if_false, Bool.false_eq_true] at h
        refine EndsBytes.step (p1 := L l) (s1 := s) (by omega) ?_ (hgo h)
        simp only [executeAt, h1, hz, if_false, Bool.false_eq_true, jump_addr h3]
    | @jmp _ l k' m rel h1 h2 h3 h4 =>
      have hle := h4.le
      simp only [Verif.run, exec] at h
      refine EndsBytes.step (p1 := L l) (s1 := s) (by omega) ?_ (hgo h)
      simp only [executeAt, h1, jump_addr h3]
    | bind h1 h2 => exact ih _ _ _ _ h2 (suf hs) h
    | @illegal _ k' h1 h2 h3 =>
      have hle := h3.le
      simp only [Verif.run, exec] at h
      cases h
      exact ⟨pos, k', by omega, .refl, h1, h2, hs⟩

/-! ## The other direction -/

theorem Placed.front {pos : Nat} {k : Code} (h : Placed text L Q a len pos k) :
    (pos = len ∧ ∀ w s, ∃ n, Verif.run w n k s = some (.exit s)) ∨
    (pos < len ∧ ∃ i k', (∀ l, i ≠ .bind l) ∧ Placed text L Q a len pos (i :: k') ∧ i :: k' <:+ k ∧
      ∀ w s n o, Verif.run w n (i :: k') s = some o → ∃ m, Verif.run w m k s = some o) := by
  have keep : ∀ {pos' i k'}, pos' < len → (∀ l, i ≠ .bind l) → Placed text L Q a len pos' (i :: k') →
      (pos' = len ∧ ∀ w s, ∃ n, Verif.run w n (i :: k') s = some (.exit s)) ∨
      (pos' < len ∧ ∃ i' k'', (∀ l, i' ≠ .bind l) ∧ Placed text L Q a len pos' (i' :: k'') ∧ i' :: k'' <:+ i :: k' ∧
        ∀ w s n o, Verif.run w n (i' :: k'') s = some o → ∃ m, Verif.run w m (i :: k') s = some o) :=
    fun h1 h2 h3 => .inr ⟨h1, _, _, h2, h3, List.suffix_rfl, fun w s n o h => ⟨n, h⟩⟩
  induction h with
  | nil => exact .inl ⟨rfl, fun w s => ⟨1, rfl⟩⟩
  | plain h1 h2 h3 h4 _ =>
    have := h4.le
    exact keep (by omega) (by rintro l rfl; cases h3) (.plain h1 h2 h3 h4)
  | je h1 h2 h3 h4 _ => have := h4.le; exact keep (by omega) nofun (.je h1 h2 h3 h4)
  | jne h1 h2 h3 h4 _ => have := h4.le; exact keep (by omega) nofun (.jne h1 h2 h3 h4)
  | jmp h1 h2 h3 h4 _ => have := h4.le; exact keep (by omega) nofun (.jmp h1 h2 h3 h4)
  | illegal h1 h2 h3 _ => have := h3.le; exact keep (by omega) nofun (.illegal h1 h2 h3)
  | bind h1 h2 ih =>
    rcases ih with ⟨k1, k2⟩ | ⟨k1, i, k', k2, k3, k4, k5⟩
    · exact .inl ⟨k1, fun w s => let ⟨n, h⟩ := k2 w s; ⟨n + 1, h⟩⟩
    · exact .inr ⟨k1, i, k', k2, k3, k4.trans (List.suffix_cons ..), fun w s n o h =>
        let ⟨m, h⟩ := k5 w s n o h; ⟨m + 1, h⟩⟩

/-- Every jump has a target. -/
def JumpsBound (w : Code) : Prop := ∀ i ∈ w, ∀ l o, i.jump = some (l, o) → ∃ k, target l w = some k

theorem ofNat_inj {x : W} {m n : Nat} (hm : m < 2 ^ 64) (hn : n < 2 ^ 64)
    (h : x + BitVec.ofNat 64 m = x + BitVec.ofNat 64 n) : m = n := by
  have := congrArg BitVec.toNat (BitVec.add_right_inj x |>.mp h)
  simp only [BitVec.toNat_ofNat] at this
  omega

/-- Machine code which leaves the snippet at its end, or is killed in it. -/
theorem Placed.back {w : Code} (hw : Placed text L Q a len 0 w) (hc : JumpsBound w) (hlen : len < 2 ^ 64) {x x' : W} {s s' : State} {avx : Bool}
    (hev : ∀ pos k s, decode (window text (a + BitVec.ofNat 64 pos)) = some (.evex, 1) → Q (pos + 1) k → .illegal :: k <:+ w →
      executeAt avx text (a + BitVec.ofNat 64 pos) s = .sigill s)
    (h : Executes avx text (Inside a len) x s x' s') : ∀ (pos : Nat) (k : Code), x = a + BitVec.ofNat 64 pos →
    Placed text L Q a len pos k → k <:+ w →
    (x' = a + BitVec.ofNat 64 len → ∃ n, Verif.run w n k s = some (.exit s')) ∧
    (Inside a len x' → executeAt avx text x' s' = .sigill s' → ∃ n, Verif.run w n k s = some (.trap s')) := by
  induction h with
  | @refl x s =>
    rintro pos k rfl hk hs
    have hle := hk.le
    refine ⟨fun he => ?_, ?_⟩
    · have := ofNat_inj (by omega) hlen he
      rcases hk.front with ⟨_, h⟩ | ⟨h, _⟩
      · exact h w s
      · omega
    · rintro ⟨p, h1, h2⟩ h3
      have := ofNat_inj (by omega) (by omega) h2
      subst this
      rcases hk.front with ⟨h, _⟩ | ⟨_, i, k', k2, k3, k4, k5⟩
      · omega
      · cases k3 with
        | plain h1 _ h4 =>
          obtain ⟨s1, h5⟩ := Instr.straight_next h4 s
          simp [executeAt, h1, h5] at h3
        | je h1 => simp [executeAt, h1] at h3
        | jne h1 => simp [executeAt, h1] at h3
        | jmp h1 => simp [executeAt, h1] at h3
        | bind => exact absurd rfl (k2 _)
        | illegal h1 => exact k5 w s 1 _ rfl
  | @step x s x1 s1 x2 s2 hp hx _ ih =>
    rintro pos k rfl hk hs
    have hle := hk.le
    obtain ⟨p, h1, h2⟩ := hp
    have := ofNat_inj (by omega) (by omega) h2
    subst this
    rcases hk.front with ⟨h, _⟩ | ⟨_, i, k', k2, k3, k4, k5⟩
    · omega
    have hsuf := k4.trans hs
    have suf : k' <:+ w := (List.suffix_cons ..).trans hsuf
    have use : ∀ {pos1 : Nat} {k1 : Code}, x1 = a + BitVec.ofNat 64 pos1 → Placed text L Q a len pos1 k1 → k1 <:+ w →
        (∀ n o, Verif.run w n k1 s1 = some o → Verif.run w (n + 1) (i :: k') s = some o) →
        (x2 = a + BitVec.ofNat 64 len → ∃ n, Verif.run w n k s = some (.exit s2)) ∧
        (Inside a len x2 → executeAt avx text x2 s2 = .sigill s2 → ∃ n, Verif.run w n k s = some (.trap s2)) := by
      intro pos1 k1 e1 hp1 hs1 hr
      obtain ⟨j1, j2⟩ := ih pos1 k1 e1 hp1 hs1
      refine ⟨fun h => ?_, fun h h' => ?_⟩
      · obtain ⟨n, h⟩ := j1 h
        exact k5 w s _ _ (hr n _ h)
      · obtain ⟨n, h⟩ := j2 h h'
        exact k5 w s _ _ (hr n _ h)
    have ij : ∀ l o, i.jump = some (l, o) → ∃ k, Verif.target l w = some k :=
      hc i (hsuf.subset (List.mem_cons_self ..))
    cases k3 with
    | @plain _ _ _ m h1 _ h4 h6 =>
      obtain ⟨s3, h5⟩ := Instr.straight_next h4 s
      simp only [executeAt, h1, h5, Executed.next.injEq] at hx
      obtain ⟨rfl, rfl⟩ := hx
      refine use (add_ofNat ..) h6 suf fun n o h => ?_
      simp only [Verif.run, h5, h]
    | @je _ l _ m rel h1 _ h4 h6 =>
      simp only [executeAt, h1, Executed.next.injEq] at hx
      obtain ⟨rfl, rfl⟩ := hx
      by_cases hz : s.zf = true
      · obtain ⟨kt, ht⟩ := ij _ _ rfl
        refine use (pos1 := L l) (by rw [if_pos hz, jump_addr h4]) (hw.target ht) (target_suffix ht) fun n o h => ?_
        simp only [Verif.run, exec, hz, if_true, ht, h]
      · refine use (pos1 := pos + m) (by simp [hz, add_ofNat]) h6 suf fun n o h => ?_
        simp only [Verif.run, exec, hz, Bool.false_eq_true, if_false, h]
    | @jne _ l _ m rel h1 _ h4 h6 =>
      simp only [executeAt, h1, Executed.next.injEq] at hx
      obtain ⟨rfl, rfl⟩ := hx
      by_cases hz : s.zf = true
      · refine use (pos1 := pos + m) (by simp [hz, add_ofNat]) h6 suf fun n o h => ?_
        simp only [Verif.run, exec, hz, if_true, h]
      · obtain ⟨kt, ht⟩ := ij _ _ rfl
        refine use (pos1 := L l) (by rw [if_neg hz, jump_addr h4]) (hw.target ht) (target_suffix ht) fun n o h => ?_
        simp only [Verif.run, exec, hz, Bool.false_eq_true, if_false, ht, h]
    | @jmp _ l _ m rel h1 _ h4 h6 =>
      simp only [executeAt, h1, Executed.next.injEq] at hx
      obtain ⟨rfl, rfl⟩ := hx
      obtain ⟨kt, ht⟩ := ij _ _ rfl
      refine use (jump_addr h4) (hw.target ht) (target_suffix ht) fun n o h => ?_
      simp only [Verif.run, exec, ht, h]
    | bind => exact absurd rfl (k2 _)
    | illegal h1 h2 => rw [hev _ _ _ h1 h2 hsuf] at hx; cases hx

end

/-! ## What the assembler gives -/

theorem boundBy_keeps {known known' : Label → Option Nat} {pos : Nat} {i : Instr} (h : boundBy known pos i = some known')
    {l : Label} {q : Nat} (hq : known l = some q) : known' l = some q := by
  unfold boundBy at h
  split at h
  · split at h
    · rename_i l' hn
      cases h
      by_cases e : l = l'
      · subst e; rw [hn] at hq; cases hq
      · simp [e, hq]
    · cases h
  · cases h; exact hq

theorem labelsOf_keeps {code : Code} : ∀ {known final : Label → Option Nat} {pos : Nat},
    labelsOf known pos code = some final → ∀ {l q}, known l = some q → final l = some q := by
  induction code with
  | nil => intro known final pos h l q hq; cases h; exact hq
  | cons i k ih =>
    intro known final pos h l q hq
    simp only [labelsOf, Option.bind_eq_bind, Option.bind_eq_some_iff] at h
    obtain ⟨known', h1, n, _, h2⟩ := h
    exact ih h2 (boundBy_keeps h1 hq)

theorem bytesAt_size {final known : Label → Option Nat} {pos : Nat} {i : Instr} {bs : List Byte}
    (h : bytesAt final known pos i = some bs) : sizeAt known pos i = some bs.length := by
  unfold bytesAt at h
  unfold sizeAt
  split at h
  · rename_i l short long hj
    split at h
    · rename_i rel hr
      cases h
      simp [hr]
    · rename_i hr
      simp only [Option.bind_eq_bind, Option.bind_eq_some_iff] at h
      obtain ⟨q, _, h⟩ := h
      split at h <;> cases h
      simp [hr, disp32]
  · rename_i hj
    split at h
    · cases h; rfl
    · cases h; rfl
    · rename_i h1 h2
      rw [h]; rfl

/-- The rest `k` of a snippet stands at its place, behind the embedded byte. -/
def BehindByte (text : W → Byte) (final : Label → Option Nat) (a : W) (len pos : Nat) (k : Code) : Prop :=
  text (a + BitVec.ofNat 64 (pos - 1)) = 0x62 ∧
  ∃ known bs, bytesFrom final known pos k = some bs ∧ Stands text (a + BitVec.ofNat 64 pos) bs ∧ pos + bs.length = len

theorem decode_short {d : Int} (h : fits8 d = true) (rest : List Byte) :
    decode (0x74 :: BitVec.ofInt 8 d :: rest) = some (.je d, 2) ∧
    decode (0x75 :: BitVec.ofInt 8 d :: rest) = some (.jne d, 2) ∧
    decode (0xEB :: BitVec.ofInt 8 d :: rest) = some (.jmp d, 2) := by
  refine ⟨?_, ?_, ?_⟩ <;> simp [decode, decodeRex, decodeOp, imm8_ofInt h]

theorem decode_long {d : Int} (h : fits32 d = true) (rest : List Byte) :
    decode (0x0F :: 0x84 :: disp32 d ++ rest) = some (.je d, 6) ∧
    decode (0x0F :: 0x85 :: disp32 d ++ rest) = some (.jne d, 6) ∧
    decode (0xE9 :: disp32 d ++ rest) = some (.jmp d, 5) := by
  refine ⟨?_, ?_, ?_⟩ <;> simp [decode, decodeRex, decodeOp, imm32_disp32 h]

theorem encode_pos {i : Instr} {bs : List Byte} (h : i.encode = some bs) : 0 < bs.length := by
  cases bs with
  | nil => have := decode_encode h []; cases this
  | cons => simp

theorem placed_of {text : W → Byte} {a : W} {len : Nat} {final : Label → Option Nat} : ∀ (k : Code)
    (known : Label → Option Nat) (pos : Nat) (bs : List Byte), labelsOf known pos k = some final →
    bytesFrom final known pos k = some bs → Stands text (a + BitVec.ofNat 64 pos) bs → pos + bs.length = len →
    Placed text (fun l => (final l).getD 0) (BehindByte text final a len) a len pos k := by
  intro k
  induction k with
  | nil =>
    intro known pos bs hl hb _ hn
    cases hb
    rw [← hn]
    exact .nil
  | cons i k ih =>
    intro known pos bs hl hb hs hn
    simp only [bytesFrom, Option.bind_eq_bind, Option.bind_eq_some_iff, Option.pure_def, Option.some.injEq] at hb
    obtain ⟨b, hb1, known', hb2, r, hb3, rfl⟩ := hb
    simp only [labelsOf, bytesAt_size hb1, hb2, Option.bind_eq_bind, Option.bind_some] at hl
    have hs1 := hs.left
    have hs2 := hs.right
    rw [add_ofNat] at hs2
    rw [List.length_append] at hn
    have next := ih known' (pos + b.length) r hl hb3 hs2 (by omega)
    have keeps : ∀ {l q}, known l = some q → final l = some q := fun h => labelsOf_keeps hl (boundBy_keeps hb2 h)
    -- jumps
    have jump : ∀ l short long, i.jump = some (l, short, long) → long.length ≤ 2 →
        ∃ rel rest, ((final l).getD 0 : Int) = pos + b.length + rel ∧
          ((b.length = 2 ∧ fits8 rel = true ∧ window text (a + BitVec.ofNat 64 pos) = short :: BitVec.ofInt 8 rel :: rest) ∨
           (b.length = long.length + 4 ∧ fits32 rel = true ∧ window text (a + BitVec.ofNat 64 pos) = long ++ disp32 rel ++ rest)) := by
      intro l short long hj hlong
      have h := hb1
      simp only [bytesAt, hj] at h
      split at h
      · rename_i rel hr
        cases h
        obtain ⟨rest, hw⟩ := window_stands hs1 (by simp)
        simp only [shortTo, Option.bind_eq_some_iff, Option.ite_none_right_eq_some, Option.some.injEq] at hr
        obtain ⟨q, hq, h8, rfl⟩ := hr
        refine ⟨_, rest, ?_, .inl ⟨rfl, h8, hw⟩⟩
        rw [keeps hq]
        simp
        omega
      · simp only [Option.bind_eq_bind, Option.bind_eq_some_iff] at h
        obtain ⟨q, hq, h⟩ := h
        split at h
        · rename_i h32
          cases h
          obtain ⟨rest, hw⟩ := window_stands hs1 (by simp [disp32]; omega)
          refine ⟨_, rest, ?_, .inr ⟨by simp [disp32], h32, hw⟩⟩
          rw [hq]
          simp [disp32]
          omega
        · cases h
    by_cases hj : ∃ bs, i.encode = some bs
    · obtain ⟨c, hc⟩ := hj
      have hst := Instr.encode_straight hc
      have : b = c := by
        have h := hb1
        cases i <;> first
          | (simp only [bytesAt, Instr.jump, hc, Option.some.injEq] at h; exact h.symm)
          | cases hst
      subst this
      obtain ⟨rest, hw⟩ := window_stands hs1 (encode_length hc)
      exact .plain (by rw [hw, decode_encode hc]) (encode_pos hc) hst next
    · have none : i.encode = none := by
        cases h : i.encode with
        | none => rfl
        | some c => exact absurd ⟨c, h⟩ hj
      cases i with
      | je l =>
        obtain ⟨rel, rest, h1, ⟨h2, h3, h4⟩ | ⟨h2, h3, h4⟩⟩ := jump l _ _ rfl (by simp)
        · exact .je (by rw [h4, (decode_short h3 _).1, h2]) (by omega) h1 next
        · exact .je (by rw [h4, h2]; exact (decode_long h3 _).1) (by omega) h1 next
      | jne l =>
        obtain ⟨rel, rest, h1, ⟨h2, h3, h4⟩ | ⟨h2, h3, h4⟩⟩ := jump l _ _ rfl (by simp)
        · exact .jne (by rw [h4, (decode_short h3 _).2.1, h2]) (by omega) h1 next
        · exact .jne (by rw [h4, h2]; exact (decode_long h3 _).2.1) (by omega) h1 next
      | jmp l =>
        obtain ⟨rel, rest, h1, ⟨h2, h3, h4⟩ | ⟨h2, h3, h4⟩⟩ := jump l _ _ rfl (by simp)
        · exact .jmp (by rw [h4, (decode_short h3 _).2.2, h2]) (by omega) h1 next
        · exact .jmp (by rw [h4, h2]; exact (decode_long h3 _).2.2) (by omega) h1 next
      | bind l =>
        simp only [bytesAt, Instr.jump, Option.some.injEq] at hb1
        subst hb1
        refine .bind ?_ next
        have : known' l = some pos := by
          simp only [boundBy] at hb2
          split at hb2 <;> cases hb2
          simp
        rw [labelsOf_keeps hl this]
        rfl
      | illegal =>
        simp only [bytesAt, Instr.jump, Option.some.injEq] at hb1
        subst hb1
        obtain ⟨rest, hw⟩ := window_stands hs1 (by simp)
        refine .illegal (by rw [hw]; rfl) ⟨by simpa using hs1 0 (by simp), _, _, hb3, hs2, by simp at hn ⊢; omega⟩ next
      | _ =>
        simp only [bytesAt, Instr.jump, none] at hb1
        cases hb1

theorem assemble_placed {text : W → Byte} {a : W} {code : Code} {bs : List Byte} (h : assemble code = some bs)
    (hs : Stands text a bs) : ∃ final, labelsOf (fun _ => none) 0 code = some final ∧
      bytesFrom final (fun _ => none) 0 code = some bs ∧
      Placed text (fun l => (final l).getD 0) (BehindByte text final a bs.length) a bs.length 0 code := by
  simp only [assemble, Option.bind_eq_bind, Option.bind_eq_some_iff] at h
  obtain ⟨final, h1, h2⟩ := h
  exact ⟨final, h1, h2, placed_of code _ 0 bs h1 h2 (by simpa using hs) (by simp)⟩

/-- A label is somewhere only if it is bound. -/
theorem labelsOf_target : ∀ (k : Code) (known final : Label → Option Nat) (pos : Nat), labelsOf known pos k = some final →
    ∀ {l q}, final l = some q → known l = some q ∨ ∃ k', target l k = some k' := by
  intro k
  induction k with
  | nil => intro known final pos h l q hq; cases h; exact .inl hq
  | cons i k ih =>
    intro known final pos h l q hq
    simp only [labelsOf, Option.bind_eq_bind, Option.bind_eq_some_iff] at h
    obtain ⟨known', h1, n, _, h2⟩ := h
    by_cases hb : i.binds l = true
    · exact .inr ⟨k, by simp [target, hb]⟩
    · rcases ih _ _ _ h2 hq with h | ⟨k', h⟩
      · left
        cases i <;> simp only [boundBy, Option.some.injEq] at h1 <;> try (subst h1; exact h)
        rename_i l' _
        split at h1 <;> cases h1
        have : l ≠ l' := by rintro rfl; simp [Instr.binds] at hb
        simpa [this] using h
      · exact .inr ⟨k', by simp [target, hb, h]⟩

theorem bytesFrom_closed {final : Label → Option Nat} {w : Code} (hf : ∀ l q, final l = some q → ∃ k, target l w = some k) :
    ∀ (k : Code) (known : Label → Option Nat) (pos : Nat) (bs : List Byte), labelsOf known pos k = some final →
    bytesFrom final known pos k = some bs →
    ∀ i ∈ k, ∀ l o, i.jump = some (l, o) → ∃ k, target l w = some k := by
  intro k
  induction k with
  | nil => intro _ _ _ _ _ i hi; cases hi
  | cons j k ih =>
    intro known pos bs hl hb i hi l o hj
    simp only [bytesFrom, Option.bind_eq_bind, Option.bind_eq_some_iff, Option.pure_def, Option.some.injEq] at hb
    obtain ⟨b, hb1, known', hb2, r, hb3, rfl⟩ := hb
    simp only [labelsOf, bytesAt_size hb1, hb2, Option.bind_eq_bind, Option.bind_some] at hl
    rcases List.mem_cons.mp hi with rfl | hi
    · obtain ⟨short, long⟩ := o
      simp only [bytesAt, hj] at hb1
      split at hb1
      · rename_i rel hr
        simp only [shortTo, Option.bind_eq_some_iff] at hr
        obtain ⟨q, hq, _⟩ := hr
        exact hf _ _ (labelsOf_keeps hl (boundBy_keeps hb2 hq))
      · simp only [Option.bind_eq_bind, Option.bind_eq_some_iff] at hb1
        obtain ⟨q, hq, _⟩ := hb1
        exact hf _ _ hq
    · exact ih _ _ _ hl hb3 i hi l o hj

theorem assemble_closed {code : Code} {bs : List Byte} (h : assemble code = some bs) : JumpsBound code := by
  simp only [assemble, Option.bind_eq_bind, Option.bind_eq_some_iff] at h
  obtain ⟨final, h1, h2⟩ := h
  refine bytesFrom_closed (fun l q hq => ?_) code _ _ _ h1 h2
  rcases labelsOf_target _ _ _ _ h1 hq with h | h
  · cases h
  · exact h

end Verif
