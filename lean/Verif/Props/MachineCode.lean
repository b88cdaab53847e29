import Verif.Assembles
import Verif.Props.Evex

/-!
# C114, C115: the machine code of the snippets
-/

namespace Verif

/-! ## The embedded byte -/

theorem codeBytes_illegal {k : Code} {cb : List Byte} (h : codeBytes k = some cb) : Instr.illegal ∉ k := by
  induction k generalizing cb with
  | nil => nofun
  | cons i k ih =>
    simp only [codeBytes, Option.bind_eq_bind, Option.bind_eq_some_iff] at h
    obtain ⟨b, hb, c, hc, _⟩ := h
    rintro (_ | ⟨_, hm⟩)
    · cases hb
    · exact ih hc hm

theorem behind_unique {code kb k : Code} {cb : List Byte} (hb : behind code = some kb) (hc : codeBytes kb = some cb)
    (hs : .illegal :: k <:+ code) : k = kb := by
  induction code with
  | nil => cases hb
  | cons i c ih =>
    by_cases hi : i = .illegal
    · subst hi
      cases hb
      rcases List.suffix_cons_iff.mp hs with h | h
      · cases h; rfl
      · exact absurd (h.subset (List.mem_cons_self ..)) (codeBytes_illegal hc)
    · have : behind (i :: c) = behind c := by cases i <;> first | rfl | exact absurd rfl hi
      rw [this] at hb
      rcases List.suffix_cons_iff.mp hs with h | h
      · cases h; exact absurd rfl hi
      · exact ih hb h

theorem bytes_bytesAt {final known : Label → Option Nat} {pos : Nat} {i : Instr} {b b' : List Byte}
    (h : i.bytes = some b) (h' : bytesAt final known pos i = some b') : b' = b := by
  cases i with
  | pop r => cases h; cases h'; rfl
  | popfq => cases h; cases h'; rfl
  | bind l => cases h; cases h'; rfl
  | loadGs r d =>
    simp only [bytesAt, Instr.jump, Instr.encode] at h'
    split at h'
    · cases h
      cases h'
      cases r <;> rfl
    · cases h'
  | _ => cases h

theorem codeBytes_bytesFrom {final : Label → Option Nat} : ∀ (k : Code) (known : Label → Option Nat) (pos : Nat)
    (cb bs : List Byte), codeBytes k = some cb → bytesFrom final known pos k = some bs → bs = cb := by
  intro k
  induction k with
  | nil => intro _ _ _ _ h h'; cases h; cases h'; rfl
  | cons i k ih =>
    intro known pos cb bs h h'
    simp only [codeBytes, Option.bind_eq_bind, Option.bind_eq_some_iff, Option.pure_def, Option.some.injEq] at h
    obtain ⟨b, hb, c, hc, rfl⟩ := h
    simp only [bytesFrom, Option.bind_eq_bind, Option.bind_eq_some_iff, Option.pure_def, Option.some.injEq] at h'
    obtain ⟨b', hb', known', _, r, hr, rfl⟩ := h'
    rw [bytes_bytesAt hb hb', ih _ _ _ _ hc hr]

theorem stream_text {text : W → Byte} {a : W} {p len : Nat} {cb : List Byte}
    (hs : Stands text (a + BitVec.ofNat 64 (p + 1)) cb) (hl : p + 1 + cb.length = len) :
    (fun i => text (a + BitVec.ofNat 64 p + BitVec.ofNat 64 (1 + i))) =
      codeStream cb (fun i => text (a + BitVec.ofNat 64 len + BitVec.ofNat 64 i)) := by
  funext i
  unfold codeStream
  split
  · rename_i h
    rw [← hs i h]
    congr 1
    rw [add_ofNat, add_ofNat]
    congr 2
    omega
  · rename_i h
    dsimp only
    congr 1
    rw [add_ofNat, add_ofNat]
    congr 2
    omega

section
variable {code : Code} {bs : List Byte} {text : W → Byte} {a : W}

/-- What stands behind the snippet. -/
def afterwards (text : W → Byte) (a : W) (len : Nat) (i : Nat) : Byte :=
  text (a + BitVec.ofNat 64 len + BitVec.ofNat 64 i)

theorem evex_placed {final : Label → Option Nat} {p len : Nat} {k : Code} {e : Evex}
    (hq : BehindByte text final a len (p + 1) k) (hk : .illegal :: k <:+ code)
    (he : atByte code (afterwards text a len) = some e) :
    evex (fun i => text (a + BitVec.ofNat 64 p + BitVec.ofNat 64 (1 + i))) = e := by
  simp only [atByte, Option.bind_eq_bind, Option.bind_eq_some_iff, Option.pure_def, Option.some.injEq] at he
  obtain ⟨kb, h1, cb, h2, h3⟩ := he
  have := behind_unique h1 h2 hk
  subst this
  obtain ⟨_, known, b, h4, h5, h6⟩ := hq
  have := codeBytes_bytesFrom _ _ _ _ _ h2 h4
  subst this
  rw [stream_text h5 h6]
  exact h3

/-- A snippet which runs to its end. -/
theorem leaves_of_exits (avx : Bool) (h : assemble code = some bs) (hs : Stands text a bs) {s s' : State}
    (hx : Exits code s s') : Leaves avx text a bs.length s s' := by
  obtain ⟨final, _, _, hp⟩ := assemble_placed h hs
  obtain ⟨n, hx⟩ := hx
  have := hp.run (avx := avx) n 0 code s _ hp List.suffix_rfl hx
  simpa [EndsBytes, Leaves] using this

theorem dies_of_traps {avx : Bool} (h : assemble code = some bs) (hs : Stands text a bs) {s : State}
    (ha : avx = true → atByte code (afterwards text a bs.length) = some .undefined)
    (hx : Traps code s) : DiesIn avx text a bs.length s := by
  obtain ⟨final, _, _, hp⟩ := assemble_placed h hs
  obtain ⟨n, s', hx⟩ := hx
  obtain ⟨p, k, h1, h2, h3, h4, h5⟩ := hp.run (avx := avx) n 0 code s _ hp List.suffix_rfl hx
  refine ⟨_, s', ⟨p, h1, rfl⟩, by simpa using h2, ?_⟩
  cases avx with
  | false => simp [executeAt, h3]
  | true => simp [executeAt, h3, evex_placed h4 h5 (ha rfl)]

theorem slips_of_slipsTo (h : assemble code = some bs) (hs : Stands text a bs) {s s' : State} {n : Nat}
    (hx : SlipsTo code (afterwards text a bs.length) s s' n) : ∃ p, bs[p]? = some 0x62 ∧
      Executes true text (Inside a bs.length) a s (a + BitVec.ofNat 64 (p + 1 + n)) s' := by
  obtain ⟨final, _, _, hp⟩ := assemble_placed h hs
  obtain ⟨⟨m, hx⟩, he⟩ := hx
  obtain ⟨p, k, h1, h2, h3, h4, h5⟩ := hp.run (avx := true) m 0 code s _ hp List.suffix_rfl hx
  have hexec : executeAt true text (a + BitVec.ofNat 64 p) s' = .next (a + BitVec.ofNat 64 (p + 1 + n)) s' := by
    have := evex_placed h4 h5 he
    simp only [executeAt, h3, if_true, this]
    rw [add_ofNat, Nat.add_assoc]
  have h0 : text (a + BitVec.ofNat 64 p) = 0x62 := by simpa using h4.1
  refine ⟨p, ?_, ?_⟩
  · rw [List.getElem?_eq_getElem h1, ← hs p h1, h0]
  · exact Executes.trans (by simpa using h2) (Executes.step ⟨p, h1, rfl⟩ hexec .refl)

theorem exits_of_leaves {avx : Bool} (h : assemble code = some bs) (hs : Stands text a bs) (hlen : bs.length < 2 ^ 64)
    (ha : avx = true → Instr.illegal ∈ code → atByte code (afterwards text a bs.length) = some .undefined) {s : State} :
    (∀ s', Leaves avx text a bs.length s s' → Exits code s s') ∧ (DiesIn avx text a bs.length s → Traps code s) := by
  obtain ⟨final, _, _, hp⟩ := assemble_placed h hs
  have hev : ∀ pos k s, decode (window text (a + BitVec.ofNat 64 pos)) = some (.evex, 1) →
      BehindByte text final a bs.length (pos + 1) k → .illegal :: k <:+ code →
      executeAt avx text (a + BitVec.ofNat 64 pos) s = .sigill s := by
    intro pos k s h1 h2 h3
    cases avx with
    | false => simp [executeAt, h1]
    | true => simp [executeAt, h1, evex_placed h2 h3 (ha rfl (h3.subset (List.mem_cons_self ..)))]
  have back : ∀ {x s'}, Executes avx text (Inside a bs.length) a s x s' → _ := fun h' =>
    hp.back (assemble_closed h) hlen hev h' 0 code (by simp) hp List.suffix_rfl
  refine ⟨fun s' hl => (back hl).1 rfl, ?_⟩
  rintro ⟨x, s', h1, h2, h3⟩
  obtain ⟨n, hn⟩ := (back h2).2 h1 h3
  exact ⟨n, s', hn⟩

end

/-! ## The claims -/

/-- **C114: machine code.**  Wherever the bytes of a snippet stand, the processor gets through them exactly as
the instructions of the snippet say: it comes to their end in `s'` if and only if the instructions end
in `s'`, and the process gets SIGILL in them if and only if they reach the embedded byte.  On a processor with
AVX-512 this presupposes that the bytes behind the embedded one make no instruction of it, see C93. -/
theorem C114_machine_code {avx : Bool} {code : Code} {bs : List Byte} {text : W → Byte} {a : W}
    (h : assemble code = some bs) (hs : Stands text a bs) (hlen : bs.length < 2 ^ 64)
    (ha : avx = true → Instr.illegal ∈ code → atByte code (afterwards text a bs.length) = some .undefined) (s : State) :
    (∀ s', Leaves avx text a bs.length s s' ↔ Exits code s s') ∧
    (DiesIn avx text a bs.length s ↔ Traps code s) := by
  obtain ⟨h1, h2⟩ := exits_of_leaves h hs hlen ha (s := s)
  refine ⟨fun s' => ⟨h1 s', leaves_of_exits avx h hs⟩, h2, fun ht => ?_⟩
  refine dies_of_traps h hs (fun hx => ha hx ?_) ht
  obtain ⟨final, _, _, hp⟩ := assemble_placed h hs
  obtain ⟨n, s', hr⟩ := ht
  obtain ⟨p, k, _, _, _, _, h5⟩ := hp.run (avx := avx) n 0 code s _ hp List.suffix_rfl hr
  exact h5.subset (List.mem_cons_self ..)

/-- **C114, when the embedded byte begins an instruction**: the program goes on behind that instruction, with
the registers and the memory which the snippet left. -/
theorem C114_slips {code : Code} {bs : List Byte} {text : W → Byte} {a : W}
    (h : assemble code = some bs) (hs : Stands text a bs) {s s' : State} {n : Nat}
    (hx : SlipsTo code (afterwards text a bs.length) s s' n) : ∃ p, bs[p]? = some 0x62 ∧
      Executes true text (Inside a bs.length) a s (a + BitVec.ofNat 64 (p + 1 + n)) s' :=
  slips_of_slipsTo h hs hx

/-- **C115: no errors.**  Whatever the flags and the results of the analyses are, asmjit can encode every
snippet: all numbers fit, every label is bound once, and every jump has a target.  The bytes do not depend on
where the buffer is. -/
theorem C115_stackPush {fl : JitFlags} {sm : Option JitSummary} {useOrig useFixed : Bool} {height : Int}
    {blockStart trgStart : Nat} {code : Code} {mid : Option MoveInst}
    (hm : pushMove sm useOrig useFixed blockStart trgStart = some mid)
    (h : jitStackPush fl sm useOrig height useFixed blockStart trgStart = some code)
    (hd : OffsetOk (pushDisp sm mid height)) :
    ∃ bs, bs.length ≤ 405 ∧ ∀ base, generate base code = some bs :=
  let ⟨bs, h1, h2⟩ := push_assembles hm h hd
  ⟨bs, h2, fun _ => h1⟩

theorem C115_stackPop {fl : JitFlags} {sm : Option JitSummary} {useOrig : Bool} {blockStart addr : Nat}
    {code : Code} {mid : Option MoveInst} (hm : popMove sm useOrig blockStart = some mid)
    (h : jitStackPop fl sm useOrig blockStart addr = some code) (hd : OffsetOk (popDisp mid)) :
    ∃ bs, bs.length ≤ 405 ∧ ∀ base, generate base code = some bs :=
  let ⟨bs, h1, h2⟩ := pop_assembles hm h hd
  ⟨bs, h2, fun _ => h1⟩

theorem C115_registerPush {fl : JitFlags} {sm : JitSummary} {height : Int} {code : Code}
    (h : jitRegisterPush fl sm height = some code) (hd : OffsetOk height) :
    ∃ bs, bs.length ≤ 405 ∧ ∀ base, generate base code = some bs :=
  let ⟨bs, h1, h2⟩ := regPush_assembles h hd
  ⟨bs, h2, fun _ => h1⟩

theorem C115_registerPop {fl : JitFlags} {sm : JitSummary} {code : Code} (h : jitRegisterPop fl sm = some code) :
    ∃ bs, bs.length ≤ 405 ∧ ∀ base, generate base code = some bs :=
  let ⟨bs, h1, h2⟩ := regPop_assembles h
  ⟨bs, h2, fun _ => h1⟩

/-- A snippet which is assembled has no number which does not fit. -/
theorem bytesFrom_fits {final : Label → Option Nat} : ∀ (k : Code) (known : Label → Option Nat) (pos : Nat)
    (bs : List Byte), bytesFrom final known pos k = some bs → ∀ i ∈ k, i.fits = true := by
  intro k
  induction k with
  | nil => intro _ _ _ _ i hi; cases hi
  | cons j k ih =>
    intro known pos bs hb i hi
    simp only [bytesFrom, Option.bind_eq_bind, Option.bind_eq_some_iff] at hb
    obtain ⟨b, hb1, known', _, r, hb3, _⟩ := hb
    rcases List.mem_cons.mp hi with rfl | hi
    · by_cases hst : i.straight = true
      · refine fits_of_encode (bs := b) ?_
        cases i <;> first
          | cases hst; done
          | simpa only [bytesAt, Instr.jump] using hb1
      · cases i <;> first
          | rfl
          | exact absurd rfl hst
    · exact ih _ _ _ hb3 i hi

/-- **C115, the condition is needed**: a number which does not fit is an error, which is only printed; the
instruction is missing in what is inserted. -/
theorem C115_needed {code : Code} {i : Instr} (hi : i ∈ code) (h : i.fits = false) : assemble code = none := by
  cases ha : assemble code with
  | none => rfl
  | some bs =>
    simp only [assemble, Option.bind_eq_bind, Option.bind_eq_some_iff] at ha
    obtain ⟨final, _, h2⟩ := ha
    have := bytesFrom_fits _ _ _ _ h2 i hi
    rw [h] at this
    cases this

/-! ## What the inserted bytes do -/

/-- **C114 for a push**: the bytes which are inserted record the return address. -/
theorem C114_push {code : Code} {d : Int} {n : Nat} {free : Reg → Prop} (h : IsPush code d n free) (hd : OffsetOk d) :
    ∃ bs, (∀ base, generate base code = some bs) ∧ ∀ avx text a, Stands text a bs → ∀ s,
      PushSep (s.regs .rsp + BitVec.ofInt 64 d) n s →
      ∃ s', Leaves avx text a bs.length s s' ∧ Pushed free (s.regs .rsp + BitVec.ofInt 64 d) n s s' := by
  have hr := fun s => @IsPush.run _ _ _ _ h s
  obtain ⟨fl, sm, uo, ht, uf, b, ts, mid, _, hm, _, hc, rfl, _, _⟩ := h
  obtain ⟨bs, h1, _⟩ := push_assembles hm hc hd
  refine ⟨bs, fun _ => h1, fun avx text a hs s hsep => ?_⟩
  obtain ⟨s', h3, h4⟩ := hr s hsep
  exact ⟨s', leaves_of_exits avx h1 hs h3, h4⟩

/-- **C114 for a check**: the bytes which are inserted let the program go on if the return address is on the shadow
stack, and lead to SIGILL otherwise.  `avx = true`: a processor with AVX-512, see C93. -/
theorem C114_check {code : Code} {d : Int} {n : Nat} {free : Reg → Prop} (h : IsCheck code d n free) (hd : OffsetOk d) :
    ∃ bs, (∀ base, generate base code = some bs) ∧ ∀ avx text a, Stands text a bs →
      (avx = true → atByte code (afterwards text a bs.length) = some .undefined) → ∀ s l, s.Holds l →
      CheckSep (s.regs .rsp + BitVec.ofInt 64 d) n (l.length + 1) s →
      match scan (s.mem.read64 (s.regs .rsp + BitVec.ofInt 64 d)) l with
      | some i => (∃ s', Leaves avx text a bs.length s s' ∧ Checked free n i s s') ∧ ¬ DiesIn avx text a bs.length s
      | none => DiesIn avx text a bs.length s ∧ ∀ s', ¬ Leaves avx text a bs.length s s' := by
  have hr := fun s l => @IsCheck.run _ _ _ _ h s l
  obtain ⟨fl, sm, uo, b, addr, mid, _, hm, _, hc, rfl, _, _⟩ := h
  obtain ⟨bs, h1, hlen⟩ := pop_assembles hm hc hd
  refine ⟨bs, fun _ => h1, fun avx text a hs ha s l hl hsep => ?_⟩
  obtain ⟨e1, e2⟩ := C114_machine_code h1 hs (by omega) (fun h _ => ha h) s
  have := hr s l hl hsep
  cases hi : scan (s.mem.read64 (s.regs .rsp + BitVec.ofInt 64 (popDisp mid))) l with
  | some i =>
    rw [hi] at this
    obtain ⟨s', h3, h4⟩ := this
    refine ⟨⟨s', (e1 s').mpr h3, h4⟩, fun hx => ?_⟩
    obtain ⟨m, s1, hx⟩ := e2.mp hx
    obtain ⟨m', h3⟩ := h3
    cases run_det hx h3
  | none =>
    rw [hi] at this
    refine ⟨e2.mpr this, fun s' hx => ?_⟩
    obtain ⟨m, hx⟩ := (e1 s').mp hx
    obtain ⟨m', s1, h3⟩ := this
    cases run_det hx h3

/-- **C114 for a register frame**: the bytes at the entry save the register and put the return address there. -/
theorem C114_registerPush {code : Code} {reg : Reg} {d : Int} (h : IsRegPush code reg d) (hd : OffsetOk d) :
    ∃ bs, (∀ base, generate base code = some bs) ∧ ∀ avx text a, Stands text a bs → ∀ s,
      Sep (s.regs .rsp + BitVec.ofInt 64 d) 8 (s.gs + 8) 8 →
      Leaves avx text a bs.length s (regPushed reg d s) := by
  have hr := fun s => @IsRegPush.run _ _ _ h s
  obtain ⟨fl, sm, _, _, hc⟩ := h
  obtain ⟨bs, h1, _⟩ := regPush_assembles hc hd
  exact ⟨bs, fun _ => h1, fun avx text a hs s hsep => leaves_of_exits avx h1 hs (hr s hsep)⟩

/-- **C114 for the exit of a register frame**: if the return address is that in the register, the bytes restore
the register; otherwise they look for it on the shadow stack. -/
theorem C114_registerPop {code : Code} {reg : Reg} (h : IsRegPop code reg) :
    ∃ bs, (∀ base, generate base code = some bs) ∧ ∀ avx text a, Stands text a bs → ∀ s,
      (s.mem.read64 (s.regs .rsp) = s.regs reg → Leaves avx text a bs.length s (regPopped reg s)) ∧
      (s.mem.read64 (s.regs .rsp) ≠ s.regs reg → ∀ l, s.Holds l → CheckSep (s.regs .rsp) 16 (l.length + 1) s →
        scan (s.mem.read64 (s.regs .rsp)) l = none → DiesIn avx text a bs.length s) := by
  have hr := fun s => @IsRegPop.run _ _ h s
  have hn := fun s l => @IsRegPop.differ _ _ h s l
  obtain ⟨fl, sm, hf, _, hc⟩ := h
  obtain ⟨bs, h1, _⟩ := regPop_assembles hc
  refine ⟨bs, fun _ => h1, fun avx text a hs s => ⟨fun he => leaves_of_exits avx h1 hs (hr s he),
    fun hne l hl hsep hscan => ?_⟩⟩
  have := hn s l hne hl hsep
  rw [hscan] at this
  exact dies_of_traps h1 hs (fun _ => C93_register hf.notEmpty hf.notSave hc _) this

/-! ## Concrete code -/

/-- A text in which the bytes stand at `a`, followed by `nop`s. -/
def textWith (a : W) (bs : List Byte) (x : W) : Byte := (bs[(x - a).toNat]?).getD 0x90

theorem textWith_stands (a : W) (pre bs post : List Byte) (h : (pre ++ bs ++ post).length < 2 ^ 64) :
    Stands (textWith a (pre ++ bs ++ post)) (a + BitVec.ofNat 64 pre.length) bs := by
  intro i hi
  have e : (a + BitVec.ofNat 64 pre.length + BitVec.ofNat 64 i - a).toNat = pre.length + i := by
    have : a + BitVec.ofNat 64 pre.length + BitVec.ofNat 64 i - a = BitVec.ofNat 64 (pre.length + i) := by
      rw [BitVec.ofNat_add]; bv_omega
    simp only [List.length_append] at h
    rw [this, BitVec.toNat_ofNat, Nat.mod_eq_of_lt (by omega)]
  unfold textWith
  rw [e, List.append_assoc, List.getElem?_append_right (by omega), List.getElem?_append_left (by omega)]
  simp [List.getElem?_eq_getElem hi]

/-- The bytes of the check of a function of which nothing is known. -/
def nextCheckBytes : List Byte :=
  [0x41, 0x52, 0x41, 0x53, 0x65, 0x4C, 0x8B, 0x14, 0x25, 0, 0, 0, 0, 0x4D, 0x8D, 0x52, 0xF8, 0x4D, 0x8B, 0x1A,
   0x65, 0x4C, 0x89, 0x14, 0x25, 0, 0, 0, 0, 0x4C, 0x3B, 0x5C, 0x24, 0x10, 0x0F, 0x84, 0x0D, 0, 0, 0,
   0x41, 0x83, 0x3A, 0, 0x0F, 0x84, 2, 0, 0, 0, 0xEB, 0xD9, 0x62, 0x41, 0x5B, 0x41, 0x5A]

theorem nextCheck_bytes : assemble nextCheck = some nextCheckBytes := by decide +kernel

theorem nextCheck_is : IsCheck nextCheck 0 16 (ScratchFree {} (deadExit none 0) none) :=
  ⟨{}, none, false, 0, 0, none, ⟨by decide, by decide, rfl⟩, rfl, ⟨by simp, by simp⟩, by decide +kernel, rfl, rfl, rfl⟩

/-- C114 on concrete bytes at 0x500000: the return address is on the shadow stack, and the program goes on. -/
example (avx : Bool) : ∃ s', Leaves avx (textWith 0x500000 nextCheckBytes) 0x500000 57
    (sampleState 0x401000 [0x402000, 0x401000, 0x403000]) s' := by
  have hs := textWith_stands 0x500000 [] nextCheckBytes [] (by decide)
  simp only [List.nil_append, List.append_nil, List.length_nil, BitVec.ofNat_eq_ofNat, BitVec.add_zero] at hs
  obtain ⟨bs, h1, h2⟩ := C114_check nextCheck_is (by simp [OffsetOk])
  have e : bs = nextCheckBytes := by
    have := h1 0
    rw [generate, nextCheck_bytes] at this
    exact (Option.some.inj this).symm
  subst e
  have := h2 avx _ _ hs (fun _ => C93_full (fl := {}) (useOrig := false) (blockStart := 0) (addr := 0) (by decide) (by decide)
    (by decide +kernel) _) _ _ sample_holds sample_ready
  have hsc : scan ((sampleState 0x401000 [0x402000, 0x401000, 0x403000]).mem.read64
      ((sampleState 0x401000 [0x402000, 0x401000, 0x403000]).regs .rsp + BitVec.ofInt 64 0))
      [0x402000, 0x401000, 0x403000] = some 1 := by decide +kernel
  rw [hsc] at this
  obtain ⟨⟨s', h, _⟩, _⟩ := this
  exact ⟨s', h⟩

/-- It is not, and the process gets SIGILL, on every processor. -/
example (avx : Bool) : DiesIn avx (textWith 0x500000 nextCheckBytes) 0x500000 57
    (sampleState 0x404000 [0x402000, 0x401000, 0x403000]) := by
  have hs := textWith_stands 0x500000 [] nextCheckBytes [] (by decide)
  simp only [List.nil_append, List.append_nil, List.length_nil, BitVec.ofNat_eq_ofNat, BitVec.add_zero] at hs
  obtain ⟨bs, h1, h2⟩ := C114_check nextCheck_is (by simp [OffsetOk])
  have e : bs = nextCheckBytes := by
    have := h1 0
    rw [generate, nextCheck_bytes] at this
    exact (Option.some.inj this).symm
  subst e
  have := h2 avx _ _ hs (fun _ => C93_full (fl := {}) (useOrig := false) (blockStart := 0) (addr := 0) (by decide) (by decide)
    (by decide +kernel) _) _ _ sample_holds' sample_ready'
  have hsc : scan ((sampleState 0x404000 [0x402000, 0x401000, 0x403000]).mem.read64
      ((sampleState 0x404000 [0x402000, 0x401000, 0x403000]).regs .rsp + BitVec.ofInt 64 0))
      [0x402000, 0x401000, 0x403000] = none := by decide +kernel
  rw [hsc] at this
  exact this.1

theorem Executes.mono {avx : Bool} {text : W → Byte} {P P' : W → Prop} (hp : ∀ x, P x → P' x) {a a' : W} {s s' : State}
    (h : Executes avx text P a s a' s') : Executes avx text P' a s a' s' := by
  induction h with
  | refl => exact .refl
  | step h1 h2 _ ih => exact .step (hp _ h1) h2 ih

/-- The bytes of `slipCheck`, the epilogue `pop r14; pop r15; ret` behind it, and the push and the check of the function
which follows. -/
def slipBytes : List Byte :=
  [0x65, 0x4C, 0x8B, 0x34, 0x25, 0, 0, 0, 0, 0x4D, 0x8D, 0x76, 0xF8, 0x4D, 0x8B, 0x3E,
   0x65, 0x4C, 0x89, 0x34, 0x25, 0, 0, 0, 0, 0x4C, 0x3B, 0x7C, 0x24, 0x10, 0x0F, 0x84, 0x0D, 0, 0, 0,
   0x41, 0x83, 0x3E, 0, 0x0F, 0x84, 2, 0, 0, 0, 0xEB, 0xD9, 0x62]
def epilogueBytes : List Byte := [0x41, 0x5E, 0x41, 0x5F, 0xC3]
def nextPushBytes : List Byte :=
  [0x41, 0x52, 0x41, 0x53, 0x4C, 0x8B, 0x5C, 0x24, 0x10, 0x65, 0x4C, 0x8B, 0x14, 0x25, 0, 0, 0, 0, 0x4D, 0x89, 0x1A,
   0x4D, 0x8D, 0x52, 0x08, 0x65, 0x4C, 0x89, 0x14, 0x25, 0, 0, 0, 0, 0x41, 0x5B, 0x41, 0x5A]

/-- **C114, the attack of C93 on the bytes themselves.**  On a processor with AVX-512 the machine code of the
moved check, of the epilogue and of the next function, one after the other, is executed to its end with the return address
overwritten: none of the checks raises SIGILL, and the `ret` which follows goes to 0xbad000. -/
theorem C114_attack : ∃ s', Executes true (textWith 0x500000 (slipBytes ++ epilogueBytes ++ nextPushBytes ++ nextCheckBytes))
    (fun _ => True) 0x500000 slipState 0x500095 s' ∧ s'.mem.read64 (s'.regs .rsp) = 0xbad000 := by
  have h : slipChain slipCheck nextPush nextCheck slipState = some (0x7000, 0xbad000) := by decide +kernel
  obtain ⟨s1, s2, s3, h1, h2, h3, _, h5⟩ := slipChain_some h
  have a1 : assemble slipCheck = some slipBytes := by decide +kernel
  have a2 : assemble nextPush = some nextPushBytes := by decide +kernel
  have t1 := textWith_stands 0x500000 [] slipBytes (epilogueBytes ++ nextPushBytes ++ nextCheckBytes) (by decide +kernel)
  have t2 := textWith_stands 0x500000 (slipBytes ++ epilogueBytes) nextPushBytes nextCheckBytes (by decide +kernel)
  have t3 := textWith_stands 0x500000 (slipBytes ++ epilogueBytes ++ nextPushBytes) nextCheckBytes [] (by decide +kernel)
  have e1 : [] ++ slipBytes ++ (epilogueBytes ++ nextPushBytes ++ nextCheckBytes) =
      slipBytes ++ epilogueBytes ++ nextPushBytes ++ nextCheckBytes := rfl
  have e2 : slipBytes ++ epilogueBytes ++ nextPushBytes ++ nextCheckBytes ++ [] =
      slipBytes ++ epilogueBytes ++ nextPushBytes ++ nextCheckBytes := rfl
  rw [e1] at t1
  rw [e2] at t3
  generalize hT : textWith 0x500000 (slipBytes ++ epilogueBytes ++ nextPushBytes ++ nextCheckBytes) = T at *
  have hslip : SlipsTo slipCheck (afterwards T (0x500000 + BitVec.ofNat 64 0) slipBytes.length) slipState s1 5 :=
    ⟨⟨_, h1⟩, by subst hT; decide +kernel⟩
  obtain ⟨p, hp, x1⟩ := C114_slips a1 t1 hslip
  have hp48 : p = 48 := by
    have : p < 49 := by
      by_cases hlt : p < 49
      · exact hlt
      · rw [List.getElem?_eq_none (by show 49 ≤ p; omega)] at hp; cases hp
    have all : ∀ q, q < 49 → slipBytes[q]? = some 0x62 → q = 48 := by decide +kernel
    exact all p this hp
  subst hp48
  have x2 := leaves_of_exits true a2 t2 ⟨_, h2⟩
  have x3 := leaves_of_exits true nextCheck_bytes t3 ⟨_, h3⟩
  exact ⟨s3, (x1.mono (fun _ _ => trivial)).trans ((x2.mono (fun _ _ => trivial)).trans (x3.mono (fun _ _ => trivial))), h5⟩

/-- The hypotheses of C115: all offsets between `INT_MIN` and `INT_MAX - 24`. -/
example : OffsetOk 0 ∧ OffsetOk 4096 ∧ OffsetOk (-8) := by simp [OffsetOk]

/-- An offset beyond `int`, which the code cannot hold. -/
example : assemble [.load .r11 .rsp 2147483648] = none := C115_needed (List.mem_cons_self ..) (by decide)

/-- A push which uses dead registers, and a loop with all jumps. -/
example : assemble [.push .r10, .load .r11 .rsp 16, .loadGs .r10 0, .store .r10 0 .r11, .lea .r10 .r10 8,
    .storeGs 0 .r10, .pop .r10] = some
    [0x41, 0x52, 0x4C, 0x8B, 0x5C, 0x24, 0x10, 0x65, 0x4C, 0x8B, 0x14, 0x25, 0, 0, 0, 0, 0x4D, 0x89, 0x1A,
     0x4D, 0x8D, 0x52, 0x08, 0x65, 0x4C, 0x89, 0x14, 0x25, 0, 0, 0, 0, 0x41, 0x5A] := by decide +kernel

example : assemble [.bind .loop, .cmpMem .r11 .rsp 16, .je .done, .cmpDword .r10 0, .je .error, .jmp .loop,
    .bind .error, .illegal, .bind .done] = some
    [0x4C, 0x3B, 0x5C, 0x24, 0x10, 0x0F, 0x84, 0x0D, 0, 0, 0, 0x41, 0x83, 0x3A, 0, 0x0F, 0x84, 2, 0, 0, 0,
     0xEB, 0xE9, 0x62] := by decide +kernel

/-- A comparison with a word elsewhere is not taken for one of a snippet: `group1` knows no displacement. -/
theorem group1_displaced {gs w : Bool} {b : Reg} {d i : Int} (h : d ≠ 0) : group1 gs w 7 i (.mem (some b) d) = none := by
  simp [group1, h]

/-- `cmp dword ptr [rdx + 8], 0` and `cmp dword ptr [rdx], 0`. -/
example : decode [0x83, 0x7A, 0x08, 0x00] = none ∧
    decode [0x83, 0x3A, 0x00] = some (.plain (.cmpDword .rdx 0), 3) := by decide +kernel

end Verif
