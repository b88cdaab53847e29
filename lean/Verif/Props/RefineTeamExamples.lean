import Verif.Props.RefineTeamPlan
import Verif.Props.RefineFullExamples

/-! C108, C109 and C110: a program with two threads. -/

namespace Verif

/-! ## The same script on another stack -/

/-- The activation, `d` bytes further down. -/
def XAct.low (d : W) (a : XAct) : XAct := { a with at_ := a.at_ - d }

/-- A state in which the memory of `s` is `d` bytes further up. -/
def State.lift (d : W) (s : State) : State := { s with mem := fun x => s.mem (x - d) }

theorem lift_read (d p : W) (s : State) : (s.lift d).mem.read64 p = s.mem.read64 (p - d) := by
  have : ∀ c : W, p + c - d = p - d + c := fun c => by bv_omega
  simp only [State.lift, Mem.read64, this]

theorem SameSlots.low {d : W} {acts : List XAct} {s s' : State} (h : SameSlots acts (s.lift d) (s'.lift d)) :
    SameSlots (acts.map (·.low d)) s s' := by
  intro x hx
  obtain ⟨a, ha, rfl⟩ := List.mem_map.1 hx
  have := h a ha
  rwa [lift_read, lift_read] at this

theorem Moves.low {m : ProgSem} {loose : Prop} {d : W} {xs ys : List XAct} {s s' : State}
    (h : Moves m loose xs (s.lift d) ys (s'.lift d)) :
    Moves m loose (xs.map (·.low d)) s (ys.map (·.low d)) s' := by
  generalize e : s.lift d = t at h
  generalize e' : s'.lift d = t' at h
  cases h with
  | work h => subst e e'; exact .work h.low
  | block ht h => subst e e'; exact .block (a := XAct.low d _) ht h.low
  | call p hc h hg =>
    subst e e'
    simp only [lift_read] at hg ⊢
    exact .call (a := XAct.low d _) (p - d) hc h.low hg
  | ret hc h => subst e e'; exact .ret (a := XAct.low d _) hc h.low
  | tail hc ht h => subst e e'; exact .tail (a := XAct.low d _) hc ht h.low
  | unwind hl h =>
    subst e e'
    simp only [List.map_append, List.map_cons]
    exact .unwind hl h.low

theorem Scripted.low {m : ProgSem} {snip : Func → Ev → Place → Code → State → W → Prop} {loose : Prop} {sp : Nat → W}
    {view : Nat → List XAct} {k : Nat} {o : ScriptOp} {d : W}
    (hs : ∀ f ev pl c s t r, s.regs .rsp = t.regs .rsp - d → snip f ev pl c t r → snip f ev pl c s (r - d))
    (hd : ∀ k, 0x6100 + d.toNat ≤ (sp k).toNat) (h : Scripted m snip loose sp view k o) :
    Scripted m snip loose (fun k => sp k - d) (fun k => (view k).map (·.low d)) k o := by
  have slots : SlotsIn (sp k) (view k) → SlotsIn (sp k - d) ((view k).map (·.low d)) := by
    rintro ⟨h1, h2⟩
    have := hd k
    refine ⟨by bv_omega, fun x hx => ?_⟩
    obtain ⟨a, ha, rfl⟩ := List.mem_map.1 hx
    obtain ⟨h3, h4⟩ := h2 a ha
    simp only [XAct.low]
    constructor <;> bv_omega
  have same : ∀ {s s' : State}, s'.mem = s.mem → (s'.lift d).mem = (s.lift d).mem := by
    intro s s' e
    simp only [State.lift, e]
  cases o with
  | halt => trivial
  | go k' => exact ⟨congrArg (· - d) h.1, fun s => (h.2 _).low⟩
  | set r v k' | cmp r k' => exact ⟨congrArg (· - d) h.1, fun s s' e => (h.2 _ _ (same e)).low⟩
  | test r k1 k2 | jz k1 k2 =>
    exact ⟨⟨congrArg (· - d) h.1.1, fun s => (h.1.2 _).low⟩, congrArg (· - d) h.2.1, fun s => (h.2.2 _).low⟩
  | up k' =>
    refine ⟨?_, fun s s' e => (h.2 _ _ (same e)).low⟩
    have := h.1
    simp only [this]
    bv_omega
  | call v k' =>
    obtain ⟨h1, h2, h3⟩ := h
    refine ⟨by simp only [h1]; bv_omega, slots h2, ?_⟩
    rcases h3 with h3 | ⟨hg, a, as, f, e1, e2, hc⟩
    · exact .inl (by simp only [h3])
    · refine .inr ⟨hg, a.low d, as.map (·.low d), f, by simp only [e1, List.map_cons], ?_, hc⟩
      simp only [e2, List.map_cons, XAct.low]
      congr 2
      bv_omega
  | snip c k' =>
    obtain ⟨h1, h2, a, as, ev, b, hev, e1, e2, ht, hc⟩ := h
    refine ⟨congrArg (· - d) h1, slots h2, a.low d, as.map (·.low d), ev, b, hev, by simp only [e1, List.map_cons],
      by simp only [e2, List.map_cons, XAct.low], ht, fun s hr => ?_⟩
    refine hs _ _ _ _ s (s.set .rsp (sp k)) _ ?_ (hc _ ?_)
    · simpa [State.set] using hr
    · simp [State.set]

/-! ## Two threads which execute the same script -/

/-- The stacks: `[lowEnd i, lowEnd i + 0x710)`. -/
def lowEnd : Bool → Nat
  | false => 0x6900
  | true => 0x6100

/-- The shadow regions. -/
def pairBase : Bool → W
  | false => sigBase
  | true => 0x1000000

/-- The threads do not look at the flags, nor below the stack pointer. -/
def pairBlind (i : Bool) : Blind Nat where
  regs _ _ := False
  flags _ := True
  mem _ sp x := InRange x (pairBase i) regionSize ∨ lowEnd i ≤ x.toNat ∧ x.toNat < sp.toNat
  frame _ := none

section
variable {sc : Nat → ScriptOp} {m : ProgSem} {snip : Func → Ev → Place → Code → State → W → Prop} {loose : Prop}
  {sp : Bool → Nat → W} {view : Bool → Nat → List XAct} {M0 : Squad Bool Nat} {frame : Func → Reg}

/-- The stacks are where they should be. -/
structure PairOk (sp : Bool → Nat → W) (view : Bool → Nat → List XAct) : Prop where
  sp : ∀ i k, lowEnd i + 16 ≤ (sp i k).toNat ∧ (sp i k).toNat ≤ lowEnd i + 0x708
  view : ∀ i k, ∀ a ∈ view i k, lowEnd i ≤ a.at_.toNat ∧ a.at_.toNat ≤ lowEnd i + 0x708

theorem pair_sp (h : ∀ i k, Scripted m snip loose (sp i) (view i) k (sc k)) (h0 : ∀ i, M0.sp i = sp i (M0.pos i))
    {tr : List (Bool × W)} {M : Squad Bool Nat} (hr : SquadRun (scriptGuest sc) M0 tr M) (i : Bool) :
    M.sp i = sp i (M.pos i) := by
  induction hr with
  | start => exact h0 i
  | @step tr M j ls k' s' _ hs ih =>
    by_cases e : i = j
    · subst e
      rw [put_sp, put_pos]
      cases hs with
      | own hs => exact script_sp_step (h _ _) ih hs
      | pass hx => exact script_sp_pass (h _ _) ih hx
    · rw [put_sp_ne _ e, put_pos_ne _ e]
      exact ih

/-- What belongs to a thread is in its region or on its stack. -/
theorem pair_keep (hp : PairOk sp view) {i : Bool} {k : Nat} {x : W}
    (h : stackOf pairBase view i k (sp i k) x) :
    InRange x (pairBase i) regionSize ∨ lowEnd i ≤ x.toNat ∧ x.toNat < lowEnd i + 0x710 := by
  obtain ⟨h1, h2⟩ := hp.sp i k
  rcases h with h | ⟨a, ha, h⟩ | h
  · exact .inl h
  · obtain ⟨h3, h4⟩ := hp.view i k a ha
    unfold InRange at h
    have : lowEnd i ≤ 0x6900 := by cases i <;> decide
    right; bv_omega
  · unfold InRange at h
    have : lowEnd i ≤ 0x6900 := by cases i <;> decide
    right; bv_omega

theorem pair_apart {i j : Bool} {x : W}
    (h1 : InRange x (pairBase i) regionSize ∨ lowEnd i ≤ x.toNat ∧ x.toNat < lowEnd i + 0x710)
    (h2 : InRange x (pairBase j) regionSize ∨ lowEnd j ≤ x.toNat ∧ x.toNat < lowEnd j + 0x710) : i = j := by
  cases i <;> cases j <;> first
    | rfl
    | exfalso
      simp only [InRange, pairBase, lowEnd, sigBase, regionSize] at h1 h2
      rcases h1 with h1 | h1 <;> rcases h2 with h2 | h2 <;> bv_omega

theorem pair_hidden (hp : PairOk sp view) {i : Bool} {k : Nat} {x : W} (h : (pairBlind i).mem k (sp i k) x) :
    InRange x (pairBase i) regionSize ∨ lowEnd i ≤ x.toNat ∧ x.toNat < lowEnd i + 0x710 := by
  obtain ⟨h1, h2⟩ := hp.sp i k
  rcases h with h | h
  · exact .inl h
  · exact .inr ⟨h.1, by omega⟩

/-- A stack is not a region. -/
theorem pair_stack {i j : Bool} {x : W} (h1 : lowEnd i ≤ x.toNat) (h2 : x.toNat < lowEnd i + 0x710) :
    ¬ InRange x (pairBase j) regionSize := by
  intro h
  cases i <;> cases j <;> simp only [InRange, pairBase, lowEnd, sigBase, regionSize] at * <;> bv_omega

theorem lowEnd_le (i : Bool) : lowEnd i ≤ 0x6900 := by cases i <;> decide

theorem pair_loses (h : ∀ i k, Scripted m snip loose (sp i) (view i) k (sc k)) (h0 : ∀ i, M0.sp i = sp i (M0.pos i))
    (hp : PairOk sp view) (hj : ∀ k, ¬ (sc k).usesFlags) :
    TeamLoses (fun k => some (sc k).act) (scriptSite sc) pairBlind pairBase (stackOf pairBase view) M0 := by
  have hrun : ∀ {tr M}, SquadRun (guestOf (fun k => some (sc k).act) (scriptSite sc)) M0 tr M →
      SquadRun (scriptGuest sc) M0 tr M := by rw [scriptGuest_eq]; exact id
  refine ⟨?_, fun _ _ _ _ hx => ⟨.inl hx, .inl hx⟩, ?_, ?_, ?_, ?_⟩
  · rintro i k (hh | hh) <;> cases hh
  · intro tr M i j x hr h1 h2
    rw [pair_sp h h0 (hrun hr)] at h1 h2
    exact pair_apart (pair_keep hp h1) (pair_keep hp h2)
  · intro tr M i o hr e
    cases e
    refine ⟨fun _ h => h.elim, fun _ => hj _, fun a ha j hh => ?_⟩
    have hs := pair_sp h h0 (hrun hr)
    obtain ⟨h1, h2⟩ := hp.sp i (M.pos i)
    have hl := lowEnd_le i
    cases e : sc (M.pos i) with
    | up k1 =>
      rw [e] at ha
      obtain ⟨hi, ha⟩ := ha
      have ha : InRange a (M.sp i) 8 := ha
      rw [hs i] at ha
      have h3 : lowEnd i ≤ a.toNat ∧ a.toNat < lowEnd i + 0x710 := by
        unfold InRange at ha
        bv_omega
      rw [hs j] at hh
      obtain rfl := pair_apart (.inr h3) (pair_hidden hp hh)
      rcases hh with hh | hh
      · exact pair_stack h3.1 h3.2 hh
      · unfold InRange at ha
        bv_omega
    | _ => rw [e] at ha; exact ha.elim
  · intro tr M i o hr e
    cases e
    have hs := pair_sp h h0 (hrun hr)
    obtain ⟨h1, h2⟩ := hp.sp i (M.pos i)
    have hl := lowEnd_le i
    have key : ∀ a, (sc (M.pos i)).act.stores (M.at_ i) a → lowEnd i ≤ a.toNat ∧ a.toNat < lowEnd i + 0x710 := by
      intro a ha
      cases e : sc (M.pos i) with
      | call v k1 =>
        rw [e] at ha
        have ha : InRange a (M.sp i - 8) 8 := ha.2
        rw [hs i] at ha
        unfold InRange at ha
        bv_omega
      | _ => rw [e] at ha; exact ha.elim
    refine ⟨nofun, fun a ha => pair_stack (key a ha).1 (key a ha).2, fun a j hij ha hk => hij ?_⟩
    rw [hs j] at hk
    exact pair_apart (pair_keep hp hk) (.inr (key a ha))
  · intro tr M i o l k' s' hr e hs
    cases e
    have h' : ∃ l', (sc (M.pos i)).step (M.at_ i) = some (l', k', s') := by
      simp only [ScriptOp.act] at hs
      split at hs
      · next l' k1 s1 e =>
        split at hs
        · cases hs; exact ⟨l', e⟩
        · cases hs
      · cases hs
    obtain ⟨l', h'⟩ := h'
    obtain ⟨h5, h6⟩ := ScriptOp.step_leads h'
    refine ⟨fun r hr _ => hr.elim, fun _ _ => trivial, fun a ha hn => ?_, rfl⟩
    rcases ha with ha | ha
    · exact .inl ha
    · have : 0x6100 ≤ lowEnd i := by cases i <;> decide
      exact .inr ⟨ha.1, h6 a (by omega) ha.2 hn⟩

theorem pair_follows {spoils : Func → Ev → Place → Reg → Prop} (hno : ∀ f ev b r, ¬ spoils f ev (.blk b) r)
    (h : ∀ i k, Scripted m snip loose (sp i) (view i) k (sc k)) (h0 : ∀ i, M0.sp i = sp i (M0.pos i))
    (hp : PairOk sp view)
    (hb : ∀ i, ∀ a ∈ view i (M0.pos i), a.done = [] ∧ M0.mem.read64 a.at_ = a.ra ∧ ¬ GuardLike a.ra)
    (hn : ∀ i k, ∀ a ∈ view i k, ¬ m.inReg a.func) :
    (scriptGuest sc).TeamFollows m frame snip spoils pairBlind view loose pairBase M0 where
  begins i a ha := ⟨(hb i a ha).1, (hb i a ha).2.1, fun _ => (hb i a ha).2.2⟩
  moves tr M i l k' s' hr hs := script_moves (h i _) (pair_sp h h0 hr i) hs
  sites tr M i c k' hr hx := by
    have hsp : (M.at_ i).regs .rsp = sp i (M.pos i) := pair_sp h h0 hr i
    have hk := h i (M.pos i)
    obtain ⟨p1, p2⟩ := hp.sp i (M.pos i)
    have hl := lowEnd_le i
    simp only [scriptGuest, scriptSite] at hx
    cases e : sc (M.pos i) with
    | halt | go _ | test _ _ _ | set _ _ _ | cmp _ _ | jz _ _ | call _ _ | up _ => rw [e] at hx; cases hx
    | snip c k1 =>
      rw [e] at hx hk
      cases hx
      obtain ⟨_, ⟨h1, h2⟩, a, as, ev, b, hev, e1, e2, ht, hc⟩ := hk
      have ha : a ∈ view i (M.pos i) := by rw [e1]; simp
      obtain ⟨h3, h4⟩ := h2 a ha
      obtain ⟨h5, h6⟩ := hp.view i (M.pos i) a ha
      have near : ∀ x, InRange x a.at_ 8 → lowEnd i ≤ x.toNat ∧ x.toNat < lowEnd i + 0x710 := by
        intro x hx
        unfold InRange at hx
        bv_omega
      refine ⟨a, as, ev, .blk b, e1, e2, ⟨ht, hc _ hsp, fun y hy => ?_, fun x hx hh => ?_, fun x hx => ?_,
        fun r hr => hr.elim id (hno _ _ _ _), fun _ => trivial, fun hi => absurd hi (hn i _ a ha)⟩,
        fun x j hx hj hh => hj ?_⟩
      · obtain ⟨h7, h8⟩ := h2 y hy
        have hb : pairBase i = 0x100000 ∨ pairBase i = 0x1000000 := by cases i <;> simp [pairBase, sigBase]
        refine ⟨?_, ?_, ?_⟩ <;> refine sep_of_le (by decide) (by decide) ?_ <;> (try rw [hsp]) <;>
          (try unfold regionSize) <;> rcases hb with hb | hb <;> (try rw [hb]) <;> constructor <;> bv_omega
      · rcases hh with hh | hh
        · exact pair_stack (near x hx).1 (near x hx).2 hh
        · rw [hsp] at hh
          unfold InRange at hx
          bv_omega
      · rcases hx with hx | hx
        · exact hx
        · refine .inr ?_
          rw [hsp] at hx ⊢
          simp only [Place.width, InRange] at hx
          bv_omega
      · rw [pair_sp h h0 hr] at hh
        exact pair_apart (pair_hidden hp hh) (.inr (near x hx))
  frame i k r := by
    refine ⟨nofun, ?_⟩
    rintro ⟨a, as, e, hi, _⟩
    exact absurd hi (hn i k a (by rw [e]; simp))

end

/-! ## The recursive program -/

/-- How far down the stacks are. -/
def pairDown : Bool → W
  | false => 0
  | true => 0x800

def pairSp (i : Bool) (k : Nat) : W := recSp k - pairDown i

def pairView (i : Bool) (k : Nat) : List XAct := (recView k).map (·.low (pairDown i))

/-- The registers of a thread; `rbx` decides whether there is a recursive call. -/
def pairCpu (b : Bool → W) (i : Bool) : Cpu :=
  ⟨fun r => if r = .rsp then 0x7000 - pairDown i else if r = .rbx then b i else 0, 0x246, pairBase i⟩

/-- The words in memory at the beginning: two return addresses, and the tops of two shadow stacks. -/
def pairLog : List (W × W) :=
  [(0x7000, 0x401000), (0x6800, 0x401000), (0x100000, 0x100020), (0x1000000, 0x1000020)]

/-- Two threads at the beginning of the recursive program. -/
def pair0 (b : Bool → W) : Squad Bool Nat := ⟨memOf pairLog, fun _ => 0, pairCpu b⟩

theorem pair_ok (i : Bool) (k : Nat) :
    Scripted recProg.fullSem recProg.fullSnipAt False (pairSp i) (pairView i) k (recScript k) := by
  refine Scripted.low (fun f ev pl c s t r e h => ?_) (fun k => ?_) (recScript_ok k)
  · have key : ∀ n : Int, AtHeight r n t → AtHeight (r - pairDown i) n s := by
      intro n hn
      unfold AtHeight at hn ⊢
      rw [e, hn]
      bv_omega
    cases ev <;> cases pl <;> first
      | exact h.elim
      | (obtain ⟨ps, cs, h1, h2, h3, h4⟩ := h; exact ⟨ps, cs, h1, h2, h3, key _ h4⟩)
  · cases i <;> (unfold recSp; split <;> decide)

theorem pair_bounds : PairOk pairSp pairView where
  sp i k := by cases i <;> (unfold pairSp recSp; split <;> decide)
  view i k a ha := by
    obtain ⟨x, hx, rfl⟩ := List.mem_map.1 ha
    have : x.at_ = 0x7000 ∨ x.at_ = 0x6ff8 ∨ x.at_ = 0x6ff0 := by
      unfold recView at hx
      split at hx <;> simp [deep, upon, base] at hx <;> grind
    rcases this with h | h | h <;> cases i <;> simp [XAct.low, h, pairDown, lowEnd]

theorem pair0_recorded (b : Bool → W) (i : Bool) : Recorded (pairBase i) [] ((pair0 b).at_ i) := by
  cases i
  · exact ⟨rfl, cread_read (a := 0x100000) (l := pairLog) (by decide),
      ⟨fun i h => absurd h (Nat.not_lt_zero i), (by decide +kernel : ((pair0 fun _ => 0).at_ false).entry 0 = 0)⟩,
      cread_read (a := 0x100010) (l := pairLog) (by decide), by decide⟩
  · exact ⟨rfl, cread_read (a := 0x1000000) (l := pairLog) (by decide),
      ⟨fun i h => absurd h (Nat.not_lt_zero i), (by decide +kernel : ((pair0 fun _ => 0).at_ true).entry 0 = 0)⟩,
      cread_read (a := 0x1000010) (l := pairLog) (by decide), by decide⟩

theorem pair0_begins (i : Bool) : ∀ a ∈ pairView i 0,
    a.done = [] ∧ (memOf pairLog).read64 a.at_ = a.ra ∧ ¬ GuardLike a.ra := by
  intro a ha
  have : a = (base []).low (pairDown i) := by simpa [pairView, recView] using ha
  subst this
  refine ⟨rfl, ?_, by show ¬ GuardLike 0x401000; unfold GuardLike; decide⟩
  cases i
  · exact cread_read (a := 0x7000) (l := pairLog) (by decide)
  · exact cread_read (a := 0x6800) (l := pairLog) (by decide)

theorem pair_sp0 (b : Bool → W) (i : Bool) : (pair0 b).sp i = pairSp i ((pair0 b).pos i) := by
  cases i <;> rfl

theorem pair_team (b : Bool → W) : (scriptGuest recScript).TeamFollows
    recProg.fullSem (fun _ => .rax) recProg.fullSnipAt (fun _ _ _ _ => False)
    pairBlind pairView False pairBase (pair0 b) :=
  pair_follows (fun _ _ _ _ => id) pair_ok (pair_sp0 b) pair_bounds pair0_begins fun _ _ _ _ => id

theorem pair_live (b : Bool → W) :
    TeamLoses (fun k => some (recScript k).act) (scriptSite recScript) pairBlind pairBase
      (stackOf pairBase pairView) (pair0 b) :=
  pair_loses pair_ok (pair_sp0 b) pair_bounds fun k => by unfold recScript; split <;> exact id

theorem pair_depth (i : Bool) (k : Nat) : 40 + 8 * (pairView i k).length ≤ regionSize := by
  have : (recView k).length ≤ 3 := by
    unfold recView
    split <;> simp [upon, deep]
  simp only [pairView, List.length_map]
  unfold regionSize
  omega

/-- The hypotheses of C110, and of C109 and C108, are met: two threads execute the recursive program. -/
theorem C110_example (b : Bool → W) :
    (guestOf (fun k => some (recScript k).act) (scriptSite recScript)).TeamRefines pairBlind (pair0 b) := by
  have hF := pair_team b
  rw [scriptGuest_eq] at hF
  exact C110_full_partial Small.fullBinaryOk recProg_ok.full (fun k o e => by cases e; exact (recScript k).fair) hF
    (pair_live b) (pair0_recorded b) fun _ M i _ => pair_depth i (M.pos i)

theorem pair_respects (b : Bool → W) :
    (scriptGuest recScript).TeamRespects pairBlind pairBase (stackOf pairBase pairView) (pair0 b) := by
  rw [scriptGuest_eq]
  exact C110_respects (fun k o e => by cases e; exact (recScript k).fair) (pair_live b)

theorem C109_example (b : Bool → W) : (scriptGuest recScript).TeamRefines pairBlind (pair0 b) :=
  C109_full_partial Small.fullBinaryOk recProg_ok.full (pair_team b) (pair_respects b) (pair0_recorded b)
    fun _ M i _ => pair_depth i (M.pos i)

theorem put_put {ι κ : Type} [DecidableEq ι] (M : Squad ι κ) (i : ι) (k k' : κ) (s s' : State) :
    (M.put i k s).put i k' s' = M.put i k' s' := by
  simp only [Squad.put, Squad.mk.injEq, true_and]
  constructor <;> funext j <;> split <;> rfl

/-- A run of one thread is one of all. -/
theorem SquadRun.alone {P : Guest Nat W} {M0 M : Squad Bool Nat} {tr : List (Bool × W)} (h : SquadRun P M0 tr M)
    {i : Bool} {l : List W} {k : Nat} {s : State} (hr : BareRun P (M.pos i) (M.at_ i) l k s) :
    ∃ tr', SquadRun P M0 tr' (M.put i k s) := by
  induction hr with
  | start => exact ⟨_, by rw [put_self]; exact h⟩
  | step _ hs ih =>
    obtain ⟨tr', ih⟩ := ih
    have := ih.step (i := i) (by rw [put_pos, put_at]; exact hs)
    rw [put_put] at this
    exact ⟨_, this⟩

/-- Both threads get to their ends. -/
theorem pair_runs : ∃ tr M, SquadRun (scriptGuest recScript) (pair0 fun _ => 0) tr M ∧ ∀ i, M.pos i = 20 := by
  obtain ⟨t1, h1⟩ := SquadRun.start (P := scriptGuest recScript) (M0 := pair0 fun _ => 0).alone (i := false)
    (bareRun_run recScript 18 .start)
  obtain ⟨t2, h2⟩ := h1.alone (i := true) (bareRun_run recScript 18 .start)
  refine ⟨t2, _, h2, fun i => ?_⟩
  cases i <;> decide +kernel

end Verif
