import Verif.DeadPass
import Verif.Props.Scratch
import Verif.Props.Check
import Verif.Props.Interplay

/-!
# C74: registers declared dead at entries and exits
-/

namespace Verif

theorem mem_strInsert {l : List String} {x y : String} : y ∈ strInsert l x ↔ y = x ∨ y ∈ l := by
  induction l with
  | nil => simp [strInsert]
  | cons z l ih =>
    unfold strInsert
    split
    · simp
    · split
      · rename_i h; subst h; simp
      · simp only [List.mem_cons, ih]
        constructor
        · rintro (h | h | h)
          · exact .inr (.inl h)
          · exact .inl h
          · exact .inr (.inr h)
        · rintro (h | h | h)
          · exact .inr (.inl h)
          · exact .inl h
          · exact .inr (.inr h)

theorem nodup_strInsert {l : List String} {x : String} (h : l.Nodup) (hx : x ∉ l) :
    (strInsert l x).Nodup := by
  induction l with
  | nil => simp [strInsert]
  | cons z l ih =>
    rw [List.nodup_cons] at h
    unfold strInsert
    split
    · exact List.nodup_cons.2 ⟨hx, List.nodup_cons.2 h⟩
    · split
      · exact List.nodup_cons.2 h
      · rename_i hne
        refine List.nodup_cons.2 ⟨fun hz => ?_, ih h.2 fun hm => hx (List.mem_cons_of_mem _ hm)⟩
        rcases mem_strInsert.1 hz with e | e
        · exact hne e.symm
        · exact h.1 e

theorem regName_inj {r q : Reg} (h : r.name = q.name) : r = q := by
  cases r <;> cases q <;> first | rfl | (exact absurd h (by decide))

theorem dead_fold (lv : Reg → Bool) (l : List Reg) (d : List String) :
    ∀ n, n ∈ l.foldl (fun d r => if !lv r then strInsert d r.name else d) d ↔
      n ∈ d ∨ ∃ r, r ∈ l ∧ lv r = false ∧ n = r.name := by
  induction l generalizing d with
  | nil => simp
  | cons q l ih =>
    intro n
    rw [List.foldl_cons, ih]
    cases hq : lv q
    · simp only [Bool.not_false, if_true, mem_strInsert]
      constructor
      · rintro ((h | h) | ⟨r, h⟩)
        · exact .inr ⟨q, List.mem_cons_self, hq, h⟩
        · exact .inl h
        · exact .inr ⟨r, List.mem_cons_of_mem _ h.1, h.2⟩
      · rintro (h | ⟨r, h1, h2, h3⟩)
        · exact .inl (.inr h)
        · rcases List.mem_cons.1 h1 with rfl | h1
          · exact .inl (.inl h3)
          · exact .inr ⟨r, h1, h2, h3⟩
    · simp only [Bool.not_true, Bool.false_eq_true, if_false]
      constructor
      · rintro (h | ⟨r, h⟩)
        · exact .inl h
        · exact .inr ⟨r, List.mem_cons_of_mem _ h.1, h.2⟩
      · rintro (h | ⟨r, h1, h2, h3⟩)
        · exact .inl h
        · rcases List.mem_cons.1 h1 with rfl | h1
          · rw [hq] at h2; cases h2
          · exact .inr ⟨r, h1, h2, h3⟩

theorem dead_fold_nodup (lv : Reg → Bool) (l : List Reg) (hl : l.Nodup) (d : List String)
    (hd : d.Nodup) (hn : ∀ r, r ∈ l → r.name ∉ d) :
    (l.foldl (fun d r => if !lv r then strInsert d r.name else d) d).Nodup := by
  induction l generalizing d with
  | nil => exact hd
  | cons q l ih =>
    rw [List.nodup_cons] at hl
    rw [List.foldl_cons]
    split
    · refine ih hl.2 _ (nodup_strInsert hd (hn q List.mem_cons_self)) fun r hr hm => ?_
      rcases mem_strInsert.1 hm with e | e
      · exact hl.1 (regName_inj e ▸ hr)
      · exact hn r (List.mem_cons_of_mem _ hr) e
    · exact ih hl.2 d hd fun r hr => hn r (List.mem_cons_of_mem _ hr)

/-- Registers that functions may change freely, without the one that holds the result. -/
def callerSaved : Reg → Prop
  | .rcx | .rdx | .rsi | .rdi | .r8 | .r9 | .r10 | .r11 => True
  | _ => False

/-- C74.  What is declared dead: the caller-saved registers which the query says are not live;
nothing if the query fails. -/
theorem C74_dead (live : Option (Reg → Bool)) (n : String) :
    n ∈ getDead live ↔ ∃ lv r, live = some lv ∧ callerSaved r ∧ lv r = false ∧ n = r.name := by
  cases live with
  | none => simp [getDead]
  | some lv =>
    unfold getDead
    rw [dead_fold]
    constructor
    · rintro (h | ⟨r, h1, h2, h3⟩)
      · cases h
      · exact ⟨lv, r, rfl, by
          cases r <;> first | trivial | (simp [deadCandidates] at h1), h2, h3⟩
    · rintro ⟨lv', r, h0, h1, h2, h3⟩
      cases h0
      refine .inr ⟨r, ?_, h2, h3⟩
      cases r <;> first | (exact h1.elim) | decide

theorem getDead_nodup (live : Option (Reg → Bool)) : (getDead live).Nodup := by
  cases live with
  | none => exact List.nodup_nil
  | some lv => exact dead_fold_nodup lv _ (by decide) [] List.nodup_nil (fun _ _ => nofun)

theorem getDead_known {live : Option (Reg → Bool)} {n : String} (h : n ∈ getDead live) :
    KnownName n := by
  obtain ⟨_, r, _, h1, _, rfl⟩ := (C74_dead live n).1 h
  exact ⟨r, (by rintro rfl; exact h1), rfl⟩

/-- C74.  Functions left out by the filter keep what they have. -/
theorem C74_filtered (live : LiveQuery) (f : Func) (entry : Blk) (exits : List Blk)
    (ends : Blk → Nat) (s : JitSummary) : deadPass live f entry exits ends true s = s := rfl

theorem exits_fold (live : LiveQuery) (f : Func) (ends : Blk → Nat) (l : List Blk)
    (m : Nat → Option (List String)) (a : Nat) :
    (l.foldl (fun m b => deadSet m (ends b) (getDead (live f b .after))) m) a =
      (((l.filter fun b => ends b == a).getLast?).map fun b => getDead (live f b .after)).or
        (m a) := by
  induction l generalizing m with
  | nil => rfl
  | cons b l ih =>
    rw [List.foldl_cons, ih, List.filter_cons]
    by_cases h : ends b = a
    · rw [if_pos (by simpa using h), List.getLast?_cons]
      cases (l.filter fun b => ends b == a).getLast? with
      | none => simp [deadSet, h]
      | some c => simp
    · rw [if_neg (by simpa using h)]
      have : deadSet m (ends b) (getDead (live f b .after)) a = m a := by
        unfold deadSet
        rw [if_neg fun e => h (Eq.symm e)]
      rw [this]

/-- C74.  If no two exit blocks end at one address, the set stored for the end of an exit block
is the one for that block. -/
theorem C74_exit_partial (live : LiveQuery) (f : Func) (entry : Blk) {exits : List Blk}
    {ends : Blk → Nat} (s : JitSummary) {b : Blk} (hb : b ∈ exits)
    (h1 : ∀ c, c ∈ exits → ends c = ends b → c = b) :
    (deadPass live f entry exits ends false s).deadAtExit (ends b) =
      some (getDead (live f b .after)) := by
  show (exits.foldl (fun m b => deadSet m (ends b) (getDead (live f b .after))) s.deadAtExit)
    (ends b) = _
  rw [exits_fold]
  cases hl : (exits.filter fun c => ends c == ends b).getLast? with
  | none =>
    rw [List.getLast?_eq_none_iff, List.filter_eq_nil_iff] at hl
    exact absurd (by simp) (hl b hb)
  | some c =>
    have hc := List.mem_of_getLast? hl
    simp only [List.mem_filter, beq_iff_eq] at hc
    rw [h1 c hc.1 hc.2]
    rfl

/-- C74 is false for blocks that overlap: the set of one exit block is used for the other. -/
theorem C74_refuted_overlap : ∃ (live : LiveQuery) (ends : Blk → Nat) (r : Reg) (lv : Reg → Bool),
    live 0 0 .after = some lv ∧ lv r = true ∧
    ∃ d, (deadPass live 0 0 [0, 1] ends false {}).deadAtExit (ends 0) = some d ∧ r.name ∈ d := by
  refine ⟨fun _ b _ => some fun r => b == 0 && r == .rcx, fun _ => 4120, .rcx, _, rfl, by decide,
    _, rfl, by decide⟩

/-- The number of caller-saved registers that are not live. -/
def freeCount (lv : Reg → Bool) : Nat :=
  ([Reg.rsi, .rdi, .rdx, .rcx, .r8, .r9, .r10, .r11].filter fun r => !lv r).length

theorem length_strInsert {l : List String} {x : String} (hx : x ∉ l) :
    (strInsert l x).length = l.length + 1 := by
  induction l with
  | nil => rfl
  | cons z l ih =>
    unfold strInsert
    split
    · rfl
    · split
      · rename_i h; exact absurd (h ▸ List.mem_cons_self) hx
      · rw [List.length_cons, ih fun h => hx (List.mem_cons_of_mem _ h), List.length_cons]

theorem dead_fold_length (lv : Reg → Bool) (l : List Reg) (hl : l.Nodup) (d : List String)
    (hn : ∀ r, r ∈ l → r.name ∉ d) :
    (l.foldl (fun d r => if !lv r then strInsert d r.name else d) d).length =
      d.length + (l.filter fun r => !lv r).length := by
  induction l generalizing d with
  | nil => rfl
  | cons q l ih =>
    rw [List.nodup_cons] at hl
    rw [List.foldl_cons, List.filter_cons]
    split
    · rw [ih hl.2, length_strInsert (hn q List.mem_cons_self), List.length_cons]
      · omega
      · intro r hr hm
        rcases mem_strInsert.1 hm with e | e
        · exact hl.1 (regName_inj e ▸ hr)
        · exact hn r (List.mem_cons_of_mem _ hr) e
    · exact ih hl.2 d fun r hr => hn r (List.mem_cons_of_mem _ hr)

theorem getDead_length (lv : Reg → Bool) : (getDead (some lv)).length = freeCount lv := by
  have := dead_fold_length lv deadCandidates (by decide) [] (fun _ _ => nofun)
  simpa [freeCount, deadCandidates, getDead] using this

/-- C74.  With `--optimize_regs` the push at the entry changes no register which the query says
is live, if none or at least four of the eight registers are dead. -/
theorem C74_push_partial {fl : JitFlags} (hf : Normal fl) (live : LiveQuery) (f : Func)
    (entry : Blk) (exits : List Blk) (ends : Blk → Nat) (s0 : JitSummary) {lv : Reg → Bool}
    (hq : live f entry .before = some lv) (hc : freeCount lv = 0 ∨ 4 ≤ freeCount lv)
    (height : Int) (bs ts : Nat) :
    ∃ code, jitStackPush fl (some (deadPass live f entry exits ends false s0)) false height false
        bs ts = some code ∧
      ∀ s : State, PushSep (s.regs .rsp + BitVec.ofInt 64 height)
          (belowSp fl (getDead (some lv)) none) s →
        ∃ s', Exits code s s' ∧ ∀ r, lv r = true → s'.regs r = s.regs r := by
  have he : (deadPass live f entry exits ends false s0).deadAtEntry = getDead (some lv) := by
    show getDead (live f entry .before) = _
    rw [hq]
  obtain ⟨code, h1, h2⟩ := C09_scratch_selection_partial hf
    (deadPass live f entry exits ends false s0) (by
      rw [he, ← List.length_eq_zero_iff, getDead_length]; exact hc)
    (by rw [he]; exact getDead_nodup _) (by rw [he]; exact fun n hn => getDead_known hn) height
    bs ts
  rw [he] at h2
  refine ⟨code, h1, fun s hs => ?_⟩
  obtain ⟨s', h3, _, h5⟩ := h2 s hs
  refine ⟨s', h3, fun r hr => h5 r fun hm => ?_⟩
  obtain ⟨_, q, e, _, h7, h8⟩ := (C74_dead _ _).1 hm
  cases e
  rw [regName_inj h8, h7] at hr
  cases hr

/-- C74 is false for all other functions: with one, two or three of the registers dead the
emitter runs past the end of the set. -/
theorem C74_refuted_few {fl : JitFlags} (hf : Normal fl) (ho : fl.optimizeRegs = true)
    (live : LiveQuery) (f : Func) (entry : Blk) (exits : List Blk) (ends : Blk → Nat)
    (s0 : JitSummary) {lv : Reg → Bool} (hq : live f entry .before = some lv)
    (h1 : 1 ≤ freeCount lv) (h3 : freeCount lv ≤ 3) (height : Int) (bs ts : Nat) :
    jitStackPush fl (some (deadPass live f entry exits ends false s0)) false height false bs ts =
      none := by
  have he : (deadPass live f entry exits ends false s0).deadAtEntry = getDead (some lv) := by
    show getDead (live f entry .before) = _
    rw [hq]
  rw [← getDead_length] at h1 h3
  have := C09_small_dead_sets_undefined ho h1 h3 [] height
  rw [← he] at this
  unfold jitStackPush
  rw [if_neg hf.notEmpty]
  simp [pushMove, stackPushWith, hf.notEmpty, pushTemps, this]

/-- A function with five arguments: `r9`, `r10` and `r11` are dead at its entry. -/
example : freeCount (fun r => decide (r ∈ [Reg.rdi, .rsi, .rdx, .rcx, .r8])) = 3 ∧
    getDead (some fun r => decide (r ∈ [Reg.rdi, .rsi, .rdx, .rcx, .r8])) =
      ["x86_64::r10", "x86_64::r11", "x86_64::r9"] := by
  decide +kernel

/-! ## Exits that jump through a register -/

/-- `jmp *%r11` -/
def jmpR11 : BInsn := { addr := 4120, reads := [.gpr .r11 8], writes := [.other] }

/-- After the jump `rcx`, `r8` to `r11` are not live. -/
def jmpLive : LiveQuery := fun _ _ _ => some fun r => decide (r ∉ [Reg.rcx, .r8, .r9, .r10, .r11])

def jmpSum : JitSummary := deadPass jmpLive 0 0 [0] (fun _ => 4123) false {}

def jmpCheck : Code := (jitStackPop { optimizeRegs := true } (some jmpSum) false 4096 4123).getD []

def jmpAfter : Option State :=
  match run jmpCheck 60 jmpCheck (sampleState 0x401000 [0x401000]) with
  | some (.exit s) => some s
  | _ => none

/-- C74 is false at exits: the query is about the end of the block, but the check runs before
the last instruction.  A tail call through `r11` goes elsewhere.  (The address of the exit point
is taken to be the end of the block, under which the set is stored; for any other address the
set is not found and the registers are saved.) -/
theorem C74_refuted_jump : jmpR11.uses .r11 = true ∧
    ∃ code s', jitStackPop { optimizeRegs := true } (some jmpSum) false 4096 4123 = some code ∧
      Exits code (sampleState 0x401000 [0x401000]) s' ∧
      s'.regs .r11 ≠ (sampleState 0x401000 [0x401000]).regs .r11 := by
  have h1 : (jmpAfter.map fun s => decide (s.regs .r11 ≠
      (sampleState 0x401000 [0x401000]).regs .r11)) = some true := by decide +kernel
  refine ⟨by decide, jmpCheck, ?_⟩
  unfold jmpAfter at h1
  split at h1
  · rename_i s hs
    exact ⟨s, by decide +kernel, ⟨60, hs⟩, by simpa using h1⟩
  · cases h1

end Verif
