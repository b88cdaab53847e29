import Verif.Props.Evex

/-!
# C98: the encodings behind the embedded byte, against the manual

Tables and bit fields as the processor manual prints them, independent of the tests in `evex`.
-/

namespace Verif

/-! ## The instructions -/

/-- One line of the manual: mandatory prefix (0: none, 1: 66, 2: F3, 3: F2), W, opcode behind `0F`, and
whether `vvvv` is an operand. -/
structure EvexLine where
  pp : BitVec 2
  w : Bool
  op : Byte
  vvvv : Bool
  deriving DecidableEq

/-- `VADD`, `VMUL`, `VSUB`, `VMIN`, `VDIV`, `VMAX` with the suffixes `PS`, `PD`, `SS`, `SD`; `VCVTPS2PD`,
`VCVTPD2PS`, `VCVTSS2SD`, `VCVTSD2SS`; `VCVTDQ2PS`, `VCVTQQ2PS`, `VCVTPS2DQ`, `VCVTTPS2DQ`. -/
def evexLines : List EvexLine :=
  [⟨0, false, 0x58, true⟩, ⟨1, true, 0x58, true⟩, ⟨2, false, 0x58, true⟩, ⟨3, true, 0x58, true⟩,
   ⟨0, false, 0x59, true⟩, ⟨1, true, 0x59, true⟩, ⟨2, false, 0x59, true⟩, ⟨3, true, 0x59, true⟩,
   ⟨0, false, 0x5C, true⟩, ⟨1, true, 0x5C, true⟩, ⟨2, false, 0x5C, true⟩, ⟨3, true, 0x5C, true⟩,
   ⟨0, false, 0x5D, true⟩, ⟨1, true, 0x5D, true⟩, ⟨2, false, 0x5D, true⟩, ⟨3, true, 0x5D, true⟩,
   ⟨0, false, 0x5E, true⟩, ⟨1, true, 0x5E, true⟩, ⟨2, false, 0x5E, true⟩, ⟨3, true, 0x5E, true⟩,
   ⟨0, false, 0x5F, true⟩, ⟨1, true, 0x5F, true⟩, ⟨2, false, 0x5F, true⟩, ⟨3, true, 0x5F, true⟩,
   ⟨0, false, 0x5A, false⟩, ⟨1, true, 0x5A, false⟩, ⟨2, false, 0x5A, true⟩, ⟨3, true, 0x5A, true⟩,
   ⟨0, false, 0x5B, false⟩, ⟨0, true, 0x5B, false⟩, ⟨1, false, 0x5B, false⟩, ⟨2, false, 0x5B, false⟩]

/-- The fields of an instruction with EVEX prefix and two or three register operands, in the order of
the manual: `R X B R' 0 m m m`, `W v v v v 1 p p`, `z L' L b V' a a a`, opcode, `1 1 r r r b b b`. -/
structure EvexFields where
  rxbr : BitVec 4
  w : Bool
  v : BitVec 4
  pp : BitVec 2
  z : Bool
  len : BitVec 2
  bc : Bool
  v' : Bool
  aaa : BitVec 3
  op : Byte
  regs : BitVec 6

/-- The bytes behind `0x62`. -/
def EvexFields.bytes (f : EvexFields) : List Byte :=
  [f.rxbr ++ 0b0001#4,
   BitVec.ofBool f.w ++ f.v ++ 1#1 ++ f.pp,
   BitVec.ofBool f.z ++ f.len ++ BitVec.ofBool f.bc ++ BitVec.ofBool f.v' ++ f.aaa,
   f.op,
   0b11#2 ++ f.regs]

/-- The processor executes it: a line of the manual has it; an operand which is not used has all bits
set; zeroing needs a mask register; and without rounding control the length is not 3. -/
structure EvexFields.Valid (f : EvexFields) : Prop where
  line : ∃ l ∈ evexLines, l.pp = f.pp ∧ l.w = f.w ∧ l.op = f.op ∧ (l.vvvv = true ∨ (f.v = 15 ∧ f.v' = true))
  zero : f.z = true → f.aaa ≠ 0
  len : f.bc = false → f.len ≠ 3

/-! ## Bytes and their fields -/

theorem byte0 : ∀ x : Byte, (x.getLsbD 3 = false ∧ x.extractLsb' 0 3 = 1) ↔
    x = x.extractLsb' 4 4 ++ 0b0001#4 := by decide +kernel

theorem byte1 : ∀ x : Byte, x.getLsbD 2 = true ↔
    x = BitVec.ofBool (x.getLsbD 7) ++ x.extractLsb' 3 4 ++ 1#1 ++ x.extractLsb' 0 2 := by decide +kernel

theorem byte2 : ∀ x : Byte, x = BitVec.ofBool (x.getLsbD 7) ++ x.extractLsb' 5 2 ++
    BitVec.ofBool (x.getLsbD 4) ++ BitVec.ofBool (x.getLsbD 3) ++ x.extractLsb' 0 3 := by decide +kernel

theorem byte4 : ∀ x : Byte, x.extractLsb' 6 2 = 3 ↔ x = 0b11#2 ++ x.extractLsb' 0 6 := by decide +kernel

theorem fields0 : ∀ r : BitVec 4, (r ++ 0b0001#4 : Byte).extractLsb' 4 4 = r := by decide +kernel

theorem fields1 : ∀ (w : Bool) (v : BitVec 4) (p : BitVec 2),
    let x : Byte := BitVec.ofBool w ++ v ++ 1#1 ++ p
    x.getLsbD 7 = w ∧ x.extractLsb' 3 4 = v ∧ x.extractLsb' 0 2 = p := by decide +kernel

theorem fields2 : ∀ (z : Bool) (l : BitVec 2) (b v : Bool) (a : BitVec 3),
    let x : Byte := BitVec.ofBool z ++ l ++ BitVec.ofBool b ++ BitVec.ofBool v ++ a
    x.getLsbD 7 = z ∧ x.extractLsb' 5 2 = l ∧ x.getLsbD 4 = b ∧ x.getLsbD 3 = v ∧
      x.extractLsb' 0 3 = a := by decide +kernel

theorem fields4 : ∀ r : BitVec 6, (0b11#2 ++ r : Byte).extractLsb' 6 2 = 3 := by decide +kernel

/-- `arithRow` is the table of the manual. -/
theorem arithRow_lines : ∀ (pp : BitVec 2) (w : Bool) (op : Byte) (u : Bool),
    (op.extractLsb' 3 5 = 11 ∧ arithRow pp w (op.extractLsb' 0 3) = some u) ↔
      ⟨pp, w, op, u⟩ ∈ evexLines := by decide +kernel

/-- The first five bytes of `c`. -/
def five (c : Nat → Byte) : List Byte := [c 0, c 1, c 2, c 3, c 4]

/-- **C98, the instructions.** The byte is the beginning of a vector instruction exactly if the bytes
behind it are those of an instruction of the manual with register operands; it then takes all five. -/
theorem C98_vector {c : Nat → Byte} {n : Nat} :
    evex c = .vector n ↔ n = 5 ∧ ∃ f : EvexFields, f.Valid ∧ five c = f.bytes := by
  have hx : ∀ b : Bool, b = false ↔ ¬ b = true := by decide
  constructor
  · intro h
    unfold evex at h
    split at h <;> try cases h
    split at h <;> try cases h
    split at h <;> try cases h
    split at h <;> try cases h
    rename_i h0 h1 h2 h3
    split at h <;> try cases h
    rename_i u hu
    split at h <;> try cases h
    split at h <;> try cases h
    split at h <;> try cases h
    split at h <;> try cases h
    rename_i h4 h5 h6 h7
    refine ⟨rfl, ⟨(c 0).extractLsb' 4 4, (c 1).getLsbD 7, (c 1).extractLsb' 3 4, (c 1).extractLsb' 0 2,
      (c 2).getLsbD 7, (c 2).extractLsb' 5 2, (c 2).getLsbD 4, (c 2).getLsbD 3, (c 2).extractLsb' 0 3,
      c 3, (c 4).extractLsb' 0 6⟩, ⟨⟨_, (arithRow_lines _ _ _ u).mp ⟨h3.2, hu⟩, rfl, rfl, rfl, ?_⟩,
      fun hz ha => h5 ⟨hz, ha⟩, fun hb hl => h7 ⟨hb, hl⟩⟩, ?_⟩
    · cases u with
      | true => exact .inl rfl
      | false => exact .inr (Classical.byContradiction fun hn => h4 ⟨rfl, hn⟩)
    · unfold five EvexFields.bytes
      rw [← (byte0 (c 0)).mp ⟨(hx _).mpr h0, h3.1⟩, ← (byte1 (c 1)).mp (by simpa using h2), ← byte2 (c 2),
        ← (byte4 (c 4)).mp (by simpa using h6)]
  · rintro ⟨rfl, f, hv, hf⟩
    unfold five EvexFields.bytes at hf
    simp only [List.cons.injEq, and_true] at hf
    obtain ⟨e0, e1, e2, e3, e4⟩ := hf
    obtain ⟨⟨pp, w, op, u⟩, hl, h1, h2, h3, h4⟩ := hv.line
    dsimp only at h1 h2 h3 h4
    subst h1 h2 h3
    obtain ⟨g1, g2, g3⟩ := fields1 f.w f.v f.pp
    obtain ⟨k1, k2, k3, k4, k5⟩ := fields2 f.z f.len f.bc f.v' f.aaa
    rw [← e1] at g1 g2 g3
    rw [← e2] at k1 k2 k3 k4 k5
    obtain ⟨a1, a2⟩ := (byte0 (c 0)).mpr (by rw [e0, fields0])
    have b1 := (byte1 (c 1)).mpr (by rw [g1, g2, g3, e1])
    obtain ⟨r1, r2⟩ := (arithRow_lines _ _ _ _).mpr hl
    rw [← e3] at r1 r2
    have m := fields4 f.regs
    rw [← e4] at m
    unfold evex
    rw [a1, a2, b1, r1, g1, g2, g3, k1, k2, k3, k4, k5, r2, m]
    have hz := hv.zero
    have hn := hv.len
    have hu : ¬ (u = false ∧ ¬ (f.v = 15 ∧ f.v' = true)) := by
      rintro ⟨hu, hn⟩
      rcases h4 with h4 | h4
      · rw [hu] at h4; cases h4
      · exact hn h4
    rw [if_neg (by decide), if_neg (by decide), if_neg (by decide), if_pos (by decide)]
    dsimp only
    rw [if_neg hu, if_neg (fun h => hz h.1 h.2), if_neg (by decide), if_neg (fun h => hn h.1 h.2)]

/-- **C98, what the specification leaves open**: other opcode maps and opcodes, and memory operands of the
instructions above. -/
theorem C98_unlisted {c : Nat → Byte} : evex c = .unlisted ↔
    ((c 0).getLsbD 3 = false ∧ (c 0).extractLsb' 0 3 ≠ 0 ∧ (c 1).getLsbD 2 = true) ∧
    ((c 0).extractLsb' 0 3 ≠ 1 ∨ (∀ l ∈ evexLines, l.op ≠ c 3) ∨
      ((∃ l ∈ evexLines, l.pp = (c 1).extractLsb' 0 2 ∧ l.w = (c 1).getLsbD 7 ∧ l.op = c 3 ∧
        (l.vvvv = true ∨ ((c 1).extractLsb' 3 4 = 15 ∧ (c 2).getLsbD 3 = true))) ∧
       ((c 2).getLsbD 7 = true → (c 2).extractLsb' 0 3 ≠ 0) ∧ (c 4).extractLsb' 6 2 ≠ 3)) := by
  have hops : ∀ op : Byte, op.extractLsb' 3 5 = 11 ↔ ∃ l ∈ evexLines, l.op = op := by decide +kernel
  have hone : ∀ l ∈ evexLines, ∀ l' ∈ evexLines, l.pp = l'.pp → l.w = l'.w → l.op = l'.op → l = l' := by
    decide +kernel
  unfold evex
  by_cases h0 : (c 0).getLsbD 3 = true
  · rw [if_pos h0]
    exact iff_of_false nofun fun h => by rw [h0] at h; cases h.1.1
  rw [if_neg h0]
  by_cases h1 : (c 0).extractLsb' 0 3 = 0
  · rw [if_pos h1]
    exact iff_of_false nofun fun h => h.1.2.1 h1
  rw [if_neg h1]
  by_cases h2 : (c 1).getLsbD 2 = false
  · rw [if_pos h2]
    exact iff_of_false nofun fun h => by rw [h2] at h; cases h.1.2.2
  rw [if_neg h2]
  have hpre : (c 0).getLsbD 3 = false ∧ (c 0).extractLsb' 0 3 ≠ 0 ∧ (c 1).getLsbD 2 = true :=
    ⟨Bool.not_eq_true _ ▸ h0, h1, Bool.not_eq_false _ ▸ h2⟩
  by_cases h3 : (c 0).extractLsb' 0 3 = 1
  case neg =>
    rw [if_neg fun h => h3 h.1]
    exact iff_of_true rfl ⟨hpre, .inl h3⟩
  by_cases h4 : (c 3).extractLsb' 3 5 = 11
  case neg =>
    rw [if_neg fun h => h4 h.2]
    exact iff_of_true rfl ⟨hpre, .inr (.inl fun l hl e => h4 ((hops _).mpr ⟨l, hl, e⟩))⟩
  rw [if_pos ⟨h3, h4⟩]
  have hno : ¬ ∀ l ∈ evexLines, l.op ≠ c 3 := fun h => by
    obtain ⟨l, hl, e⟩ := (hops _).mp h4
    exact h l hl e
  cases hr : arithRow ((c 1).extractLsb' 0 2) ((c 1).getLsbD 7) ((c 3).extractLsb' 0 3) with
  | none =>
    refine iff_of_false nofun ?_
    rintro ⟨_, h | h | ⟨⟨⟨pp, w, op, u⟩, hl, e1, e2, e3, _⟩, _⟩⟩
    · exact h h3
    · exact hno h
    · have := ((arithRow_lines _ _ _ _).mpr hl).2
      dsimp only at e1 e2 e3
      subst e1 e2 e3
      rw [hr] at this
      cases this
  | some u =>
    dsimp only
    have hl := (arithRow_lines _ _ _ _).mp ⟨h4, hr⟩
    by_cases hu : u = false ∧ ¬ ((c 1).extractLsb' 3 4 = 15 ∧ (c 2).getLsbD 3 = true)
    · rw [if_pos hu]
      refine iff_of_false nofun ?_
      rintro ⟨_, h | h | ⟨⟨l, h, e1, e2, e3, h'⟩, _⟩⟩
      · exact h h3
      · exact hno h
      · cases hone l h _ hl e1 e2 e3
        rcases h' with h' | h'
        · rw [hu.1] at h'; cases h'
        · exact hu.2 h'
    rw [if_neg hu]
    by_cases hz : (c 2).getLsbD 7 = true ∧ (c 2).extractLsb' 0 3 = 0
    · rw [if_pos hz]
      refine iff_of_false nofun ?_
      rintro ⟨_, h | h | ⟨_, h, _⟩⟩
      · exact h h3
      · exact hno h
      · exact h hz.1 hz.2
    rw [if_neg hz]
    by_cases hm : (c 4).extractLsb' 6 2 = 3
    · rw [if_neg fun h => h hm]
      have hne : (if (c 2).getLsbD 4 = false ∧ (c 2).extractLsb' 5 2 = 3 then Evex.undefined
          else Evex.vector 5) ≠ .unlisted := by split <;> nofun
      refine iff_of_false hne ?_
      rintro ⟨_, h | h | ⟨_, _, h⟩⟩
      · exact h h3
      · exact hno h
      · exact h hm
    · rw [if_pos hm]
      refine iff_of_true rfl ⟨hpre, .inr (.inr ⟨⟨_, hl, rfl, rfl, rfl, ?_⟩, fun h h' => hz ⟨h, h'⟩, hm⟩)⟩
      cases u with
      | true => exact .inl rfl
      | false => exact .inr (Classical.byContradiction fun h => hu ⟨rfl, h⟩)

/-- The pops of `C93_pops` against the manual: `pop r14; pop r15; ret` behind the byte is `vmaxss`. -/
example : ∃ f : EvexFields, f.Valid ∧ [0x41, 0x5E, 0x41, 0x5F, 0xC3] = f.bytes ∧ f.op = 0x5F :=
  ⟨⟨4, false, 11, 2, false, 2, false, false, 1, 0x5F, 3⟩, ⟨by decide, by decide, by decide⟩, by decide⟩

/-! ## Encodings -/

/-- The encodings of `pop` in the manual. -/
def popTable : List (Reg × List Byte) :=
  [(.rax, [0x58]), (.rcx, [0x59]), (.rdx, [0x5A]), (.rbx, [0x5B]), (.rsp, [0x5C]), (.rbp, [0x5D]),
   (.rsi, [0x5E]), (.rdi, [0x5F]), (.r8, [0x41, 0x58]), (.r9, [0x41, 0x59]), (.r10, [0x41, 0x5A]),
   (.r11, [0x41, 0x5B]), (.r12, [0x41, 0x5C]), (.r13, [0x41, 0x5D]), (.r14, [0x41, 0x5E]),
   (.r15, [0x41, 0x5F])]

/-- The encodings of `mov r, gs:d`, without the displacement: prefix GS, REX.W or REX.WR, `8B`, ModR/M with
the register and a SIB byte, and the SIB byte for no base and no index. -/
def loadGsTable : List (Reg × List Byte) :=
  [(.rax, [0x65, 0x48, 0x8B, 0x04, 0x25]), (.rcx, [0x65, 0x48, 0x8B, 0x0C, 0x25]),
   (.rdx, [0x65, 0x48, 0x8B, 0x14, 0x25]), (.rbx, [0x65, 0x48, 0x8B, 0x1C, 0x25]),
   (.rsp, [0x65, 0x48, 0x8B, 0x24, 0x25]), (.rbp, [0x65, 0x48, 0x8B, 0x2C, 0x25]),
   (.rsi, [0x65, 0x48, 0x8B, 0x34, 0x25]), (.rdi, [0x65, 0x48, 0x8B, 0x3C, 0x25]),
   (.r8, [0x65, 0x4C, 0x8B, 0x04, 0x25]), (.r9, [0x65, 0x4C, 0x8B, 0x0C, 0x25]),
   (.r10, [0x65, 0x4C, 0x8B, 0x14, 0x25]), (.r11, [0x65, 0x4C, 0x8B, 0x1C, 0x25]),
   (.r12, [0x65, 0x4C, 0x8B, 0x24, 0x25]), (.r13, [0x65, 0x4C, 0x8B, 0x2C, 0x25]),
   (.r14, [0x65, 0x4C, 0x8B, 0x34, 0x25]), (.r15, [0x65, 0x4C, 0x8B, 0x3C, 0x25])]

/-- **C98, the encodings.** `pop` of every register, the load of the shadow stack pointer into every register
with every displacement (little endian), and `popfq` have the encodings of the manual; labels take no
bytes. -/
theorem C98_encodings (r : Reg) :
    (∃ bs, (r, bs) ∈ popTable ∧ (Instr.pop r).bytes = some bs) ∧
    (∀ d : Int, ∃ bs x0 x1 x2 x3, (r, bs) ∈ loadGsTable ∧
      (Instr.loadGs r d).bytes = some (bs ++ [x0, x1, x2, x3]) ∧
      (x3 ++ x2 ++ x1 ++ x0 : BitVec 32) = BitVec.ofInt 32 d) ∧
    Instr.popfq.bytes = some [0x9D] ∧ ∀ l, (Instr.bind l).bytes = some [] := by
  have le : ∀ v : BitVec 32, v.extractLsb' 24 8 ++ v.extractLsb' 16 8 ++ v.extractLsb' 8 8 ++
      v.extractLsb' 0 8 = v := by
    intro v
    apply BitVec.eq_of_getLsbD_eq
    intro i hi
    simp only [BitVec.getLsbD_append, BitVec.getLsbD_extractLsb']
    by_cases h1 : i < 8
    · simp [h1]
    by_cases h2 : i < 16
    · have : i - 8 < 8 := by omega
      simp [h1, this, show 8 + (i - 8) = i by omega]
    by_cases h3 : i < 24
    · have : i - 8 - 8 < 8 := by omega
      simp [h1, show ¬ i - 8 < 8 by omega, this, show 16 + (i - 8 - 8) = i by omega]
    · simp [h1, show ¬ i - 8 < 8 by omega, show ¬ i - 8 - 8 < 8 by omega,
        show i - 8 - 8 - 8 < 8 by omega, show 24 + (i - 8 - 8 - 8) = i by omega]
  refine ⟨?_, fun d => ?_, rfl, fun _ => rfl⟩
  · exact ⟨popBytes r, (by cases r <;> decide), rfl⟩
  · refine ⟨[0x65, if r.num < 8 then 0x48 else 0x4C, 0x8B, BitVec.ofNat 8 (4 + 8 * (r.num % 8)), 0x25],
      _, _, _, _, ?_, rfl, le _⟩
    cases r <;> decide

end Verif
