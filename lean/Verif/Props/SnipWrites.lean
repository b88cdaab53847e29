import Verif.Props.SignalTeam

/-!
# C102, C120, C121: what the instructions of snippets write, whatever interrupts them

An instruction of a snippet changes only bytes of the thread's own shadow region and the 16 bytes below the stack
pointer with which the snippet began.  This holds however often the snippet has been interrupted, whatever the handlers
and the other threads have done to memory meanwhile, and also if the check fails in the end.
-/

namespace Verif

/-! ## Code -/

/-- The instruction writes at most to the first two words of the shadow region. -/
def Mild : Instr → Prop
  | .push _ | .pushfq | .store .. | .addGs .. | .subGs .. => False
  | .storeGs d _ => d = 0 ∨ d = 8
  | _ => True

/-- Code which pushes at most 16 bytes, `n` of which have been pushed, before it does anything else, and then writes only
to the shadow region.  `p`: it stores the return address. -/
inductive Orderly (p : Prop) : Nat → Code → Prop
  | mild {n : Nat} {k : Code} : (∀ i ∈ k, Mild i) → Orderly p n k
  | push {n : Nat} {k : Code} (r : Reg) : n + 8 ≤ 16 → Orderly p (n + 8) k → Orderly p n (.push r :: k)
  | cmp {n : Nat} {k : Code} (r b : Reg) (d : Int) : Orderly p n k → Orderly p n (.cmpMem r b d :: k)
  | je {n : Nat} {k : Code} (l : Label) : Orderly p n k → Orderly p n (.je l :: k)
  | save {n : Nat} {k : Code} (sp ra : Reg) (d : Int) : p → (∀ i ∈ k, Mild i) →
      Orderly p n (.load ra .rsp d :: .loadGs sp 0 :: .store sp 0 ra :: k)

/-- Where such code has got to, if the stack pointer was `sp` in the beginning. -/
inductive WritesAt (p : Prop) (g sp : W) : Code → State → Prop
  | mild {k : Code} {t : State} : t.gs = g → (∀ i ∈ k, Mild i) → WritesAt p g sp k t
  | code {n : Nat} {k : Code} {t : State} : t.gs = g → Orderly p n k → t.regs .rsp = sp - BitVec.ofNat 64 n →
      WritesAt p g sp k t
  | load {k : Code} {t : State} (q r : Reg) : t.gs = g → p → (∀ i ∈ k, Mild i) →
      WritesAt p g sp (.loadGs q 0 :: .store q 0 r :: k) t
  | store {k : Code} {t : State} (q r : Reg) : t.gs = g → (∀ i ∈ k, Mild i) →
      (t.regs q - g).toNat + 8 ≤ regionSize → WritesAt p g sp (.store q 0 r :: k) t

theorem exec_gs {i : Instr} {s s' : State} (h : exec i s = .next s') : s'.gs = s.gs := by
  cases i <;> simp only [exec] at h <;> (try split at h) <;> cases h <;> rfl

/-- What a mild instruction leaves alone. -/
theorem Mild.keeps {i : Instr} (hi : Mild i) {g : W} {s s' : State} (hg : s.gs = g) (h : exec i s = .next s') (x : W)
    (hx : ¬ InRange x g regionSize) : s'.mem x = s.mem x := by
  cases i <;> simp only [Mild] at hi <;> simp only [exec] at h <;> (try split at h) <;> cases h <;> try rfl
  rename_i d r
  show s.mem.write64 (s.gsa d) (s.regs r) x = _
  refine write64_outRange _ _ _ _ fun hr => hx ?_
  rcases hi with rfl | rfl
  · refine slot_inRange (a := 0) (n := 8) (by decide) ?_
    rwa [State.gsa, hg] at hr
  · refine slot_inRange (a := 8) (n := 8) (by decide) ?_
    rwa [State.gsa, hg] at hr

variable {p : Prop} {g sp : W} {w k k' : Code} {t t' : State}

/-- What an instruction leaves alone. -/
theorem WritesAt.keeps (h : WritesAt p g sp k t) (hg : Go w k t k' t') (x : W) (h1 : ¬ InRange x g regionSize)
    (h2 : ¬ InRange x (sp - BitVec.ofNat 64 16) 16) : t'.mem x = t.mem x := by
  cases hg with
  | goto e _ => rw [exec_goto_mem e]
  | @next i _ _ _ e =>
    cases h with
    | mild hgs hm => exact (hm i (List.mem_cons_self ..)).keeps hgs e x h1
    | code hgs ho hsp =>
      cases ho with
      | mild hm => exact (hm i (List.mem_cons_self ..)).keeps hgs e x h1
      | push r hn _ =>
        cases e
        refine write64_outRange _ _ _ _ fun hr => h2 ?_
        rw [hsp] at hr
        simp only [InRange] at *
        bv_omega
      | cmp r b d _ => cases e; rfl
      | je l _ =>
        simp only [exec] at e
        split at e <;> cases e
        rfl
      | save sp ra d _ _ => cases e; rfl
    | load q r => cases e; rfl
    | store q r hgs _ hr =>
      cases e
      refine write64_outRange _ _ _ _ fun hr' => h1 ?_
      simp only [InRange, State.ea] at *
      have : (BitVec.ofInt 64 0 : W) = 0 := rfl
      rw [this] at hr'
      simp only [regionSize] at *
      bv_omega

/-- The next place. -/
theorem WritesAt.go (hw : ∀ l k, target l w = some k → ∀ i ∈ k, Mild i) (h : WritesAt p g sp k t)
    (hp : p → RoomFor g k t) (hg : Go w k t k' t') : WritesAt p g sp k' t' := by
  cases hg with
  | goto e ht =>
    have : t'.gs = t.gs := by rw [exec_goto_mem e]
    refine .mild (this.trans ?_) (hw _ _ ht)
    cases h <;> assumption
  | @next i _ _ _ e =>
    have hgs := exec_gs e
    cases h with
    | mild h1 hm => exact .mild (hgs.trans h1) fun j hj => hm j (List.mem_cons_of_mem _ hj)
    | code h1 ho hsp =>
      cases ho with
      | mild hm => exact .mild (hgs.trans h1) fun j hj => hm j (List.mem_cons_of_mem _ hj)
      | @push n _ r hn ho =>
        cases e
        refine .code h1 ho ?_
        show t.regs .rsp - 8 = _
        rw [hsp]
        bv_omega
      | cmp r b d ho => cases e; exact .code h1 ho hsp
      | je l ho =>
        simp only [exec] at e
        split at e <;> cases e
        exact .code h1 ho hsp
      | save q ra d hP hm => exact .load q ra (hgs.trans h1) hP hm
    | load q r h1 hP hm =>
      have hroom := hp hP q _ rfl
      cases e
      refine .store q r h1 hm ?_
      have : (t.set q (t.mem.read64 (t.gsa 0))).regs q = t.shadow := by simp [State.set, State.shadow, State.gsa]
      rw [this]
      exact hroom
    | store q r h1 hm _ => exact .mild (hgs.trans h1) hm

/-- An interrupted snippet. -/
theorem WritesAt.run {sigc : Code → State → State → Prop} {fits : Code → State → Prop}
    (H : ∀ {k a b}, sigc k a b → b.regs = a.regs ∧ b.gs = a.gs) (hp : p → ∀ k t, fits k t → RoomFor g k t)
    (hw : ∀ l k, target l w = some k → ∀ i ∈ k, Mild i) (h : WritesAt p g sp k t)
    (hr : Interrupted sigc fits w k t k' t') : WritesAt p g sp k' t' := by
  induction hr with
  | refl => exact h
  | instr _ hf hg ih => exact ih.go hw (fun hP => hp hP _ _ hf) hg
  | signal _ hs ih =>
    obtain ⟨e1, e2⟩ := H hs
    cases ih with
    | mild h1 h2 => exact .mild (e2.trans h1) h2
    | code h1 h2 h3 => exact .code (e2.trans h1) h2 (by rw [e1, h3])
    | load q r h1 h2 h3 => exact .load q r (e2.trans h1) h2 h3
    | store q r h1 h2 h3 => exact .store q r (e2.trans h1) h2 (by rw [e1]; exact h3)

/-! ## The snippets of the tool -/

theorem target_mild {l : Label} : ∀ {c k : Code}, (∀ i ∈ c, Mild i) → target l c = some k → ∀ i ∈ k, Mild i
  | i :: c, k, h, e => by
    simp only [target] at e
    split at e
    · cases e
      exact fun j hj => h j (List.mem_cons_of_mem _ hj)
    · exact target_mild (fun j hj => h j (List.mem_cons_of_mem _ hj)) e

theorem orderly_save {t1 t2 : Reg} {b1 b2 : Bool} {k : Code} (h : ∀ n, Orderly p n k) :
    Orderly p 0 (saveCode t1 t2 b1 b2 ++ k) := by
  cases b1 <;> cases b2
  · exact h _
  · exact .push _ (by decide) (h _)
  · exact .push _ (by decide) (h _)
  · exact .push _ (by decide) (.push _ (by decide) (h _))

theorem restore_mild (t1 t2 : Reg) (b1 b2 : Bool) : ∀ i ∈ restoreCode t1 t2 b1 b2, Mild i := by
  intro i hi
  cases b1 <;> cases b2 <;> simp [restoreCode] at hi <;> (try rcases hi with rfl | rfl) <;> (try subst hi) <;>
    exact trivial

theorem validate_mild (t1 t2 : Reg) (tm : Temps) : ∀ i ∈ validateRa t1 t2 tm, Mild i := by
  intro i hi
  simp [validateRa] at hi
  rcases hi with rfl | rfl | rfl | rfl | rfl | rfl | rfl | rfl | rfl | rfl | rfl | rfl | rfl <;> simp [Mild]

theorem mild_append {a b : Code} (ha : ∀ i ∈ a, Mild i) (hb : ∀ i ∈ b, Mild i) : ∀ i ∈ a ++ b, Mild i :=
  fun i hi => (List.mem_append.mp hi).elim (ha i) (hb i)

theorem IsPush.orderly {code : Code} {d : Int} {n : Nat} {free : Reg → Prop} (hc : IsPush code d n free) :
    Orderly True 0 code ∧ ∀ l k, target l code = some k → ∀ i ∈ k, Mild i := by
  obtain ⟨fl, sm, uo, ht, uf, bs, ts, mid, hf, hm, hok, hcode, rfl, rfl, rfl⟩ := hc
  obtain ⟨c1, tm, t1, t2, b1, b2, he, hs, hn, hfree⟩ := (chosen_push hok ht).out
  have ecode : code = c1 ++ (saveRa t1 t2 tm ++ restoreCode t1 t2 b1 b2) := by
    simp [jitStackPush, hf.notEmpty, hm, stackPushWith, he, body, hs.tmp1, hs.tmp2, hf.notSave,
      hf.noFrame, hs.restore] at hcode
    rw [← hcode]
  rw [ecode, hs.code]
  have htail : ∀ i ∈ (.lea t1 t1 8 :: .storeGs 0 t1 :: restoreCode t1 t2 b1 b2 : Code), Mild i :=
    mild_append (a := [.lea t1 t1 8, .storeGs 0 t1]) (by simp [Mild]) (restore_mild t1 t2 b1 b2)
  refine ⟨orderly_save fun _ => .save t1 t2 tm.spOffset trivial htail, fun l k e => ?_⟩
  rw [target_append (saveCode_binds _ _ _ _ l)] at e
  have e' : target l (.lea t1 t1 8 :: .storeGs 0 t1 :: restoreCode t1 t2 b1 b2 : Code) = some k := e
  exact target_mild htail e'

theorem IsCheck.orderly {code : Code} {d : Int} {n : Nat} {free : Reg → Prop} (hc : IsCheck code d n free) :
    Orderly False 0 code ∧ ∀ l k, target l code = some k → ∀ i ∈ k, Mild i := by
  obtain ⟨fl, sm, uo, bs, addr, mid, hf, hm, hok, hcode, rfl, rfl, rfl⟩ := hc
  obtain ⟨c1, tm, t1, t2, b1, b2, he, hs, hn, hfree⟩ := (chosen_pop hok).out
  have ecode : code = c1 ++ (validateRa t1 t2 tm ++ restoreCode t1 t2 b1 b2) := by
    simp [jitStackPop, hf.notEmpty, hm, stackPopWith, he, body, hs.tmp1, hs.tmp2, hf.notSave,
      hf.noFrame, hs.restore] at hcode
    rw [← hcode]
  rw [ecode, hs.code]
  have htail := mild_append (validate_mild t1 t2 tm) (restore_mild t1 t2 b1 b2)
  refine ⟨orderly_save fun _ => .mild htail, fun l k e => ?_⟩
  rw [target_append (saveCode_binds _ _ _ _ l)] at e
  exact target_mild htail e

theorem IsRegPush.orderly {code : Code} {reg : Reg} {d : Int} (hc : IsRegPush code reg d) :
    Orderly False 0 code ∧ ∀ l k, target l code = some k → ∀ i ∈ k, Mild i := by
  obtain ⟨fl, sm, hf, hrc, hcode⟩ := hc
  have ecode : code = [.storeGs 8 reg, .load reg .rsp d] := by
    simp [jitRegisterPush, hf.notEmpty, hf.notSave, hrc.get] at hcode
    exact hcode.symm
  subst ecode
  have : ∀ i ∈ ([.storeGs 8 reg, .load reg .rsp d] : Code), Mild i := by simp [Mild]
  exact ⟨.mild this, fun l k => target_mild this⟩

theorem IsRegPop.orderly {code : Code} {reg : Reg} (hc : IsRegPop code reg) :
    Orderly False 0 code ∧ ∀ l k, target l code = some k → ∀ i ∈ k, Mild i := by
  obtain ⟨fl, sm, hf, hrc, hcode⟩ := hc
  obtain ⟨t1, t2, tm, c1, he, hs, _, _⟩ := regPop_emitted hf hrc
  rw [he] at hcode
  obtain rfl := Option.some.inj hcode
  have htail : ∀ i ∈ validateRa t1 t2 tm ++ (restoreCode t1 t2 true true ++ [.bind .success, .loadGs reg 8]), Mild i :=
    mild_append (validate_mild t1 t2 tm) (mild_append (restore_mild t1 t2 true true) (by simp [Mild]))
  have e : regPopCode reg t1 t2 tm c1 = .cmpMem reg .rsp 0 :: .je .success ::
      (saveCode t1 t2 true true ++ (validateRa t1 t2 tm ++ (restoreCode t1 t2 true true ++
        [.bind .success, .loadGs reg 8]))) := by
    simp [regPopCode, hs.code]
  rw [e]
  refine ⟨.cmp _ _ _ (.je _ (orderly_save fun _ => .mild htail)), fun l k e => ?_⟩
  have e' : target l (saveCode t1 t2 true true ++ (validateRa t1 t2 tm ++ (restoreCode t1 t2 true true ++
        [.bind .success, .loadGs reg 8]))) = some k := e
  rw [target_append (saveCode_binds _ _ _ _ l)] at e'
  exact target_mild htail e'

end Verif
