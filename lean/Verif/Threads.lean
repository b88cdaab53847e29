import Verif.Footprint
import Verif.Props.Region

/-!
# Several threads (specification of C15)

Threads share memory; each has its own registers, flags, gs base and shadow region.
Steps of different threads interleave instruction by instruction: while one thread is in
the middle of a push or check, others may do anything which respects the ownership
described by `TState.Owns`.

`/repo/src/runtime.c:38-51, 60-66`: a thread gets its region before it runs any code of
the program (`__pthread_fn_wrapper` calls `__shadow_guard_init_stack` first; for the main
thread it is a constructor).  The initialisation is one step here; it touches only the
fresh region.
-/

namespace Verif

/-! ## What the snippets of one thread mean, without machines -/

/-- What a snippet asks of the shadow stack: record `v`; check `v`; enter a register frame;
leave a register frame where the return address is `v` and the saved copy is `r`. -/
inductive ShEv where
  | push (v : W)
  | check (v : W)
  | enter
  | leave (v r : W)

/-- The search for `v` succeeds: the topmost occurrence is not hidden by an entry which
looks like the guard word, and `post` is below it. -/
structure Finds (v : W) (l post : List W) : Prop where
  split : ∃ pre, l = pre ++ v :: post ∧ v ∉ pre ∧ ∀ x, x ∈ pre → ¬ GuardLike x

/-- The effect on the recorded addresses. -/
inductive ShStep : ShEv → List W → List W → Prop
  | push {v l} : ShStep (.push v) l (v :: l)
  | check {v l post} : Finds v l post → ShStep (.check v) l post
  | enter {l} : ShStep .enter l l
  | same {v l} : ShStep (.leave v v) l l
  | differ {v r l post} : v ≠ r → Finds v l post → ShStep (.leave v r) l post

/-- The snippet raises SIGILL. -/
inductive ShDies : ShEv → List W → Prop
  | check {v l} : (∀ post, ¬ Finds v l post) → ShDies (.check v) l
  | differ {v r l} : v ≠ r → (∀ post, ¬ Finds v l post) → ShDies (.leave v r) l

/-- The recorded addresses after a history, starting from none. -/
inductive Replay : List ShEv → List W → Prop
  | nil : Replay [] []
  | snoc {h e l l'} : Replay h l → ShStep e l l' → Replay (h ++ [e]) l'

/-! ## The machine -/

/-- What belongs to one thread alone in a processor. -/
structure Cpu where
  regs : Reg → W
  flags : W
  gs : W

/-- The registers of a state. -/
def State.cpu (s : State) : Cpu := ⟨s.regs, s.flags, s.gs⟩

/-- A thread is not started, in its own code, inside a snippet, or killed.  For a snippet:
the whole code, what remains of it, the state in which it began, what it asks for, where
the return address is, and how many bytes below the stack pointer it uses. -/
inductive Ctl where
  | off
  | idle
  | busy (w k : Code) (s0 : State) (ev : ShEv) (R : W) (n : Nat)
  | dead

/-- A thread: registers, shadow region, what it executes, and its pushes and checks so far. -/
structure TState where
  cpu : Cpu
  base : W
  ctl : Ctl
  hist : List ShEv

/-- Threads which share memory. -/
structure Mach (ι : Type) where
  mem : Mem
  thr : ι → TState

/-- What a thread sees: its own registers and the shared memory. -/
def TState.state (t : TState) (m : Mem) : State := ⟨t.cpu.regs, t.cpu.flags, t.cpu.gs, m⟩

/-- Bytes which nobody else may write: the region, and during a snippet the return address
and the bytes below the stack pointer which the snippet uses. -/
def TState.Owns (t : TState) (x : W) : Prop :=
  match t.ctl with
  | .off => False
  | .idle => InRange x t.base regionSize
  | .busy _ _ s0 _ R n => SnipFoot t.base R (s0.regs .rsp) n x
  | .dead => False

/-- A snippet which the rewriter inserted may begin in this state. -/
inductive Starts (g : W) (s : State) : Code → ShEv → W → Nat → Prop
  | push {code d n free} : IsPush code d n free → Apart g (s.retAddr d) n s → HasRoom g s →
      Starts g s code (.push (s.mem.read64 (s.retAddr d))) (s.retAddr d) n
  | check {code d n free} : IsCheck code d n free → Apart g (s.retAddr d) n s →
      s.mem.read64 (s.retAddr d) ≠ 0 →
      Starts g s code (.check (s.mem.read64 (s.retAddr d))) (s.retAddr d) n
  | enter {code reg d} : IsRegPush code reg d → Sep (s.retAddr d) 8 g regionSize →
      Starts g s code .enter (s.retAddr d) 0
  | leave {code reg} : IsRegPop code reg → Apart g (s.regs .rsp) 16 s →
      s.mem.read64 (s.regs .rsp) ≠ 0 →
      Starts g s code (.leave (s.mem.read64 (s.regs .rsp)) (s.regs reg)) (s.regs .rsp) 16

variable {ι : Type} [DecidableEq ι]

/-- Replace one thread's state and the memory. -/
def Mach.set (m : Mach ι) (t : ι) (x : TState) (mem : Mem) : Mach ι :=
  ⟨mem, fun u => if u = t then x else m.thr u⟩

/-- One step of one thread. -/
inductive MStep : Mach ι → Mach ι → Prop
  /-- a thread starts: `malloc` returns memory nobody uses -/
  | spawn {m : Mach ι} (t : ι) (a : W) (s' : State) : (m.thr t).ctl = .off →
      (∀ u, u ≠ t → ∀ x, InRange x a regionSize → ¬ (m.thr u).Owns x) →
      initStack true a ((m.thr t).state m.mem) = some s' →
      MStep m (m.set t ⟨s'.cpu, a, .idle, []⟩ s'.mem)
  /-- the program's own instructions -/
  | work {m : Mach ι} (t : ι) (c : Cpu) (mem' : Mem) : (m.thr t).ctl = .idle →
      c.gs = (m.thr t).cpu.gs → (∀ u x, (m.thr u).Owns x → mem' x = m.mem x) →
      MStep m (m.set t { m.thr t with cpu := c } mem')
  /-- a snippet begins -/
  | start {m : Mach ι} (t : ι) (code : Code) (ev : ShEv) (R : W) (n : Nat) :
      (m.thr t).ctl = .idle → Starts (m.thr t).base ((m.thr t).state m.mem) code ev R n →
      (∀ u, u ≠ t → ∀ x, InRange x R 8 ∨
        InRange x ((m.thr t).cpu.regs .rsp - BitVec.ofNat 64 n) n → ¬ (m.thr u).Owns x) →
      MStep m (m.set t { m.thr t with
        ctl := .busy code code ((m.thr t).state m.mem) ev R n } m.mem)
  /-- one instruction of a snippet -/
  | instr {m : Mach ι} (t : ι) (w k k' : Code) (s0 : State) (ev : ShEv) (R : W) (n : Nat)
      (s' : State) : (m.thr t).ctl = .busy w k s0 ev R n →
      Go w k ((m.thr t).state m.mem) k' s' →
      MStep m (m.set t { m.thr t with cpu := s'.cpu, ctl := .busy w k' s0 ev R n } s'.mem)
  /-- a snippet falls through -/
  | finish {m : Mach ι} (t : ι) (w : Code) (s0 : State) (ev : ShEv) (R : W) (n : Nat) :
      (m.thr t).ctl = .busy w [] s0 ev R n →
      MStep m (m.set t { m.thr t with ctl := .idle, hist := (m.thr t).hist ++ [ev] } m.mem)
  /-- a snippet raises SIGILL -/
  | kill {m : Mach ι} (t : ι) (w k : Code) (i : Instr) (s0 : State) (ev : ShEv) (R : W) (n : Nat)
      (s' : State) : (m.thr t).ctl = .busy w (i :: k) s0 ev R n →
      exec i ((m.thr t).state m.mem) = .trap s' →
      MStep m (m.set t { m.thr t with ctl := .dead } m.mem)

/-- Executions: any number of threads, any schedule. -/
inductive MRun : Mach ι → Mach ι → Prop
  | refl {m} : MRun m m
  | step {a b c} : MRun a b → MStep b c → MRun a c

/-- No thread has started. -/
def Mach.Initial (m : Mach ι) : Prop := ∀ t, (m.thr t).ctl = .off ∧ (m.thr t).hist = []

/-! ## Lemmas -/

theorem split_unique {v : W} {p q : List W} : ∀ {a b : List W}, v ∉ a → v ∉ b →
    a ++ v :: p = b ++ v :: q → p = q
  | [], [], _, _, e => by simpa using e
  | [], y :: b, _, n2, e => by
    simp at e n2
    exact absurd e.1 n2.1
  | x :: a, [], n1, _, e => by
    simp at e n1
    exact absurd e.1.symm n1.1
  | x :: a, y :: b, n1, n2, e => by
    simp at e n1 n2
    exact split_unique n1.2 n2.2 e.2

theorem finds_unique {v : W} {l p q : List W} (h1 : Finds v l p) (h2 : Finds v l q) : p = q := by
  obtain ⟨a, e1, n1, _⟩ := h1.split
  obtain ⟨b, e2, n2, _⟩ := h2.split
  exact split_unique n1 n2 (e1.symm.trans e2)

theorem scan_some_finds {v : W} {l : List W} {i : Nat} (h0 : v ≠ 0) (h : scan v l = some i) :
    i < l.length ∧ Finds v l (l.drop (i + 1)) := by
  obtain ⟨h1, h2, h3, h4⟩ := scan_some h
  have hi : i < l.length := by
    rcases Nat.lt_or_ge i l.length with hlt | hge
    · exact hlt
    · exact absurd (h4 (by omega)) h0
  refine ⟨hi, ⟨l.take i, ?_, ?_, ?_⟩⟩
  · rw [← h3 hi, List.getElem_cons_drop, List.take_append_drop]
  · intro hm
    obtain ⟨j, hj, e⟩ := List.mem_take_iff_getElem.1 hm
    exact (h2 j (by omega) (by omega)).1 e
  · intro x hm
    obtain ⟨j, hj, e⟩ := List.mem_take_iff_getElem.1 hm
    rw [← e]
    exact (h2 j (by omega) (by omega)).2

theorem finds_scan {v : W} {l post : List W} (h : Finds v l post) : ∃ i, scan v l = some i := by
  obtain ⟨pre, rfl, h1, h2⟩ := h.split
  exact ⟨_, scan_found h1 h2⟩

theorem ShStep.det {e : ShEv} {l a b : List W} (h1 : ShStep e l a) (h2 : ShStep e l b) : a = b := by
  cases h1 with
  | push => cases h2; rfl
  | check f => cases h2 with | check f' => exact finds_unique f f'
  | enter => cases h2; rfl
  | same =>
    cases h2 with
    | same => rfl
    | differ n _ => exact absurd rfl n
  | differ n f =>
    cases h2 with
    | same => exact absurd rfl n
    | differ _ f' => exact finds_unique f f'

theorem ShStep.not_dies {e : ShEv} {l a : List W} (h1 : ShStep e l a) : ¬ ShDies e l := by
  intro h2
  cases h1 with
  | push => cases h2
  | check f => cases h2 with | check f' => exact f' _ f
  | enter => cases h2
  | same => cases h2 with | differ n _ => exact n rfl
  | differ n f => cases h2 with | differ _ f' => exact f' _ f

theorem Replay.det {h : List ShEv} {a b : List W} (h1 : Replay h a) (h2 : Replay h b) : a = b := by
  induction h1 generalizing b with
  | nil =>
    generalize e : ([] : List ShEv) = h at h2
    cases h2 with
    | nil => rfl
    | snoc _ _ => simp at e
  | snoc r st ih =>
    rename_i h e l l'
    generalize e' : h ++ [e] = h' at h2
    cases h2 with
    | nil => simp at e'
    | snoc r' st' =>
      obtain ⟨rfl, e''⟩ := List.append_inj' e' rfl
      simp at e''; subst e''
      rw [ih r'] at st
      exact st.det st'

/-- What a register pop does on a changed return address. -/
theorem IsRegPop.searched {code : Code} {reg : Reg} (h : IsRegPop code reg) {g : W} {s : State}
    {l : List W} (hr : Recorded g l s) (ha : Apart g (s.regs .rsp) 16 s)
    (h0 : s.mem.read64 (s.regs .rsp) ≠ 0) (hne : s.mem.read64 (s.regs .rsp) ≠ s.regs reg) :
    (∃ s' post, Exits code s s' ∧ Finds (s.mem.read64 (s.regs .rsp)) l post ∧
      Recorded g post s') ∨
    (Traps code s ∧ ∀ post, ¬ Finds (s.mem.read64 (s.regs .rsp)) l post) := by
  have hd := h.differ hne hr.holds (hr.checkSep ha)
  cases hsc : scan (s.mem.read64 (s.regs .rsp)) l with
  | none =>
    rw [hsc] at hd
    refine Or.inr ⟨hd, fun post hf => ?_⟩
    obtain ⟨i, hi⟩ := finds_scan hf
    rw [hsc] at hi; cases hi
  | some i =>
    left
    obtain ⟨hi, hf⟩ := scan_some_finds h0 hsc
    obtain ⟨fl, sm, hfl, hreg, hcode⟩ := h
    obtain ⟨t1, t2, t, c1, he, hs, _, _⟩ := regPop_emitted hfl hreg
    rw [he] at hcode
    obtain rfl := Option.some.inj hcode
    have hc : Recorded g l (cmpState reg s) := hr.keep rfl fun _ _ => rfl
    have e1 : (cmpState reg s).regs .rsp + BitVec.ofInt 64 0 = s.regs .rsp := by simp [cmpState]
    have ha' : Apart g ((cmpState reg s).regs .rsp + BitVec.ofInt 64 0) (nsave true true)
        (cmpState reg s) := by rw [e1]; exact ⟨ha.ret, ha.save, ha.ret_save⟩
    obtain ⟨a, b, c, _⟩ := scan_some hsc
    have hret : (cmpState reg s).mem.read64 ((cmpState reg s).regs .rsp + BitVec.ofInt 64 0) =
      s.mem.read64 (s.regs .rsp) := by rw [e1]; rfl
    obtain ⟨s1, hck, hx⟩ := exits_check (pre := [.cmpMem reg .rsp 0, .je .success])
      (post := [.bind .success, .loadGs reg 8]) (by
        intro l i hi
        simp at hi
        rcases hi with rfl | rfl <;> rfl) hs (cmpState reg s) i
      ((hc.checkSep ha').mono (by omega)) (by
        intro j hj
        rw [hret, hc.holds.entry (by omega), dif_pos (by omega)]
        exact b j hj (by omega)) (by
        rw [hret, hc.holds.entry a, dif_pos hi]
        exact c hi)
    have hrec := hc.check ha' hi hck
    refine ⟨s1.set reg (s1.mem.read64 (s1.gs + 8)), _, ?_, hf, hrec.keep rfl fun _ _ => rfl⟩
    have e : regPopCode reg t1 t2 t c1 = .cmpMem reg .rsp 0 :: .je .success ::
      (c1 ++ validateRa t1 t2 t ++ restoreCode t1 t2 true true ++
        [.bind .success, .loadGs reg 8]) := by simp [regPopCode]
    have hx' := hx _ (ends_next rfl (ends_next (loadGs_exec reg _) (ends_nil _ _)))
    rw [exits_iff]
    show Ends (regPopCode reg t1 t2 t c1) (regPopCode reg t1 t2 t c1) s _
    conv => arg 2; rw [e]
    refine ends_next (cmpState_exec reg s) (ends_next (s' := cmpState reg s) ?_ hx')
    simp [exec, cmpState_zf, hne.symm]

/-- A snippet which begins in a state with recorded addresses touches only what its thread
owns. -/
theorem Starts.within {g : W} {s : State} {w : Code} {ev : ShEv} {R : W} {n : Nat} {l : List W}
    (h : Starts g s w ev R n) (hr : Recorded g l s) :
    Within (SnipFoot g R (s.regs .rsp) n) w w s := by
  cases h with
  | push hc ha hroom => rw [hr.hasRoom] at hroom; exact hc.within hr ha hroom
  | check hc ha _ => exact hc.within hr ha
  | enter hc _ => exact hc.within hr.gs
  | leave hc ha _ => exact hc.within hr ha

/-- When it falls through, it has done what it asked for. -/
theorem Starts.exits {g : W} {s s' : State} {w : Code} {ev : ShEv} {R : W} {n : Nat} {l : List W}
    (h : Starts g s w ev R n) (hr : Recorded g l s) (hx : Exits w s s') :
    ∃ l', ShStep ev l l' ∧ Recorded g l' s' := by
  cases h with
  | push hc ha hroom =>
    rw [hr.hasRoom] at hroom
    obtain ⟨s'', hx', hp⟩ := hc.run (hr.pushSep ha hroom)
    obtain rfl := hx.det hx'
    exact ⟨_, .push, hr.push ha hroom hp⟩
  | @check d n free hc ha h0 =>
    have := hc.run hr.holds (hr.checkSep ha)
    cases hsc : scan (s.mem.read64 (s.regs .rsp + BitVec.ofInt 64 d)) l with
    | none => rw [hsc] at this; exact absurd this hx.not_traps
    | some i =>
      rw [hsc] at this
      obtain ⟨s'', hx', hk⟩ := this
      obtain rfl := hx.det hx'
      obtain ⟨hi, hf⟩ := scan_some_finds h0 hsc
      exact ⟨_, .check hf, hr.check ha hi hk⟩
  | enter hc ha =>
    obtain rfl := hx.det (hc.run (Apart.enter hr.gs ha))
    exact ⟨_, .enter, hr.regPushed _ _⟩
  | @leave reg hc ha h0 =>
    by_cases e : s.mem.read64 (s.regs .rsp) = s.regs reg
    · obtain rfl := hx.det (hc.run e)
      rw [e]
      exact ⟨_, .same, hr.keep rfl fun _ _ => rfl⟩
    · rcases hc.searched hr ha h0 e with ⟨s'', post, hx', hf, hrec⟩ | ⟨ht, _⟩
      · obtain rfl := hx.det hx'
        exact ⟨post, .differ e hf, hrec⟩
      · exact absurd ht hx.not_traps

/-- When it raises SIGILL, the address was not there. -/
theorem Starts.traps {g : W} {s : State} {w : Code} {ev : ShEv} {R : W} {n : Nat} {l : List W}
    (h : Starts g s w ev R n) (hr : Recorded g l s) (hx : Traps w s) : ShDies ev l := by
  cases h with
  | push hc ha hroom =>
    rw [hr.hasRoom] at hroom
    obtain ⟨s'', hx', _⟩ := hc.run (hr.pushSep ha hroom)
    exact absurd hx hx'.not_traps
  | @check d n free hc ha h0 =>
    have := hc.run hr.holds (hr.checkSep ha)
    cases hsc : scan (s.mem.read64 (s.regs .rsp + BitVec.ofInt 64 d)) l with
    | none =>
      refine .check fun post hf => ?_
      obtain ⟨i, hi⟩ := finds_scan hf
      rw [State.retAddr, hsc] at hi; cases hi
    | some i =>
      rw [hsc] at this
      obtain ⟨s'', hx', _⟩ := this
      exact absurd hx hx'.not_traps
  | enter hc ha => exact absurd hx (hc.run (Apart.enter hr.gs ha)).not_traps
  | @leave reg hc ha h0 =>
    by_cases e : s.mem.read64 (s.regs .rsp) = s.regs reg
    · exact absurd hx (hc.run e).not_traps
    · rcases hc.searched hr ha h0 e with ⟨s'', post, hx', _⟩ | ⟨_, hn⟩
      · exact absurd hx hx'.not_traps
      · exact .differ e hn

/-! ## The invariant -/

/-- One thread's part. -/
def TInv (t : TState) (m : Mem) : Prop :=
  match t.ctl with
  | .idle => ∃ l, Replay t.hist l ∧ Recorded t.base l (t.state m)
  | .busy w k s0 ev R n => ∃ l, Replay t.hist l ∧ Recorded t.base l s0 ∧
      Starts t.base s0 w ev R n ∧
      ∃ s, Path (SnipFoot t.base R (s0.regs .rsp) n) w w s0 k s ∧
        Within (SnipFoot t.base R (s0.regs .rsp) n) w k s ∧
        AgreeOn (SnipFoot t.base R (s0.regs .rsp) n) s (t.state m)
  | _ => True

/-- The invariant: what threads own is disjoint, and every thread is in order. -/
structure MInv (m : Mach ι) : Prop where
  apart : ∀ t u, t ≠ u → ∀ x, (m.thr t).Owns x → ¬ (m.thr u).Owns x
  thread : ∀ t, TInv (m.thr t) m.mem

theorem recorded_region {g : W} {l : List W} {s s' : State} (h : Recorded g l s)
    (hg : s'.gs = s.gs) (hm : ∀ x, InRange x g regionSize → s'.mem x = s.mem x) :
    Recorded g l s' := by
  refine h.keep hg fun x hx => hm x ?_
  rcases hx with hx | hx
  · exact inRange_sub hx (by rw [BitVec.sub_self]; decide)
  · refine inRange_sub hx ?_
    have : g + 16 - g = 16#64 := by bv_omega
    rw [this]; decide

/-- A thread does not notice changes of memory which it does not own. -/
theorem TInv.frame {t : TState} {m m' : Mem} (h : TInv t m) (hm : ∀ x, t.Owns x → m' x = m x) :
    TInv t m' := by
  obtain ⟨cpu, base, ctl, hist⟩ := t
  cases ctl with
  | off => trivial
  | dead => trivial
  | idle =>
    obtain ⟨l, h1, h2⟩ := h
    exact ⟨l, h1, recorded_region (s' := TState.state ⟨cpu, base, .idle, hist⟩ m') h2 rfl hm⟩
  | busy w k s0 ev R n =>
    obtain ⟨l, h1, h2, h3, s, h4, h5, h6⟩ := h
    refine ⟨l, h1, h2, h3, s, h4, h5, ⟨h6.regs, h6.flags, h6.gs, fun x hx => ?_⟩⟩
    exact (hm x hx).trans (h6.mem x hx)

/-- A step of one thread which keeps its own part, changes only what nobody else owns, and
takes nothing which others own. -/
theorem MInv.set {m : Mach ι} (h : MInv m) (t : ι) (x : TState) (mem' : Mem)
    (h1 : TInv x mem') (h2 : ∀ u, u ≠ t → ∀ a, (m.thr u).Owns a → mem' a = m.mem a)
    (h3 : ∀ u, u ≠ t → ∀ a, x.Owns a → ¬ (m.thr u).Owns a) : MInv (m.set t x mem') := by
  refine ⟨fun a b hab y ha hb => ?_, fun u => ?_⟩
  · simp only [Mach.set] at ha hb
    by_cases ea : a = t
    · by_cases eb : b = t
      · exact hab (ea.trans eb.symm)
      · rw [if_pos ea] at ha; rw [if_neg eb] at hb
        exact h3 b eb y ha hb
    · by_cases eb : b = t
      · rw [if_neg ea] at ha; rw [if_pos eb] at hb
        exact h3 a ea y hb ha
      · rw [if_neg ea] at ha; rw [if_neg eb] at hb
        exact h.apart a b hab y ha hb
  · simp only [Mach.set]
    by_cases e : u = t
    · rw [if_pos e]; exact h1
    · rw [if_neg e]; exact (h.thread u).frame (h2 u e)

theorem Go.cons {w k k' : Code} {s s' : State} (h : Go w k s k' s') : ∃ i r, k = i :: r := by
  cases h <;> exact ⟨_, _, rfl⟩

theorem Path.snoc {F : W → Prop} {w k k1 k2 : Code} {s s1 s2 : State} {i : Instr}
    (h : Path F w k s (i :: k1) s1) (ht : Touches F i s1) (hg : Go w (i :: k1) s1 k2 s2) :
    Path F w k s k2 s2 := h.trans (.step ht hg .refl)

/-- One instruction of a busy thread. -/
theorem TInv.instr {t : TState} {m : Mem} {w k k' : Code} {s0 s' : State} {ev : ShEv} {R : W}
    {n : Nat} (h : TInv t m) (e : t.ctl = .busy w k s0 ev R n)
    (hg : Go w k (t.state m) k' s') :
    TInv { t with cpu := s'.cpu, ctl := .busy w k' s0 ev R n } s'.mem ∧
      ∀ x, ¬ t.Owns x → s'.mem x = m x := by
  unfold TInv at h
  rw [e] at h
  obtain ⟨l, h1, h2, h3, s, h4, h5, h6⟩ := h
  obtain ⟨i, r, rfl⟩ := hg.cons
  have ht := h5.touches
  obtain ⟨s1, hg1, ha1, hm1⟩ := hg.agree h6 ht
  refine ⟨⟨l, h1, h2, h3, s1, h4.snoc ht hg1, h5.go hg1, ⟨ha1.regs, ha1.flags, ha1.gs, ha1.mem⟩⟩,
    fun x hx => ?_⟩
  have hx' : ¬ SnipFoot t.base R (s0.regs .rsp) n x := by
    unfold TState.Owns at hx
    rw [e] at hx; exact hx
  exact hm1 x hx'

theorem TInv.outcome {t : TState} {m : Mem} {w : Code} {s0 : State} {ev : ShEv} {R : W}
    {n : Nat} (h : TInv t m) (e : t.ctl = .busy w [] s0 ev R n) :
    ∃ l l' s', Replay t.hist l ∧ ShStep ev l l' ∧ Exits w s0 s' ∧ Recorded t.base l' s' ∧
      AgreeOn (SnipFoot t.base R (s0.regs .rsp) n) s' (t.state m) := by
  unfold TInv at h
  rw [e] at h
  obtain ⟨l, h1, h2, h3, s, h4, h5, h6⟩ := h
  have hx : Exits w s0 s := h4.ends (ends_nil _ _)
  obtain ⟨l', h7, h8⟩ := h3.exits h2 hx
  exact ⟨l, l', s, h1, h7, hx, h8, h6⟩

theorem TInv.finish {t : TState} {m : Mem} {w : Code} {s0 : State} {ev : ShEv} {R : W}
    {n : Nat} (h : TInv t m) (e : t.ctl = .busy w [] s0 ev R n) :
    TInv { t with ctl := .idle, hist := t.hist ++ [ev] } m := by
  obtain ⟨l, l', s', h1, h2, _, h4, h5⟩ := h.outcome e
  exact ⟨l', .snoc h1 h2, recorded_region (s' := t.state m) h4 h5.gs
    fun x hx => h5.mem x (Or.inl hx)⟩

theorem exec_trap {i : Instr} {s s' : State} (h : exec i s = .trap s') : i = .illegal := by
  cases i <;> simp only [exec] at h <;> (try cases h) <;> (try rfl)
  · split at h <;> cases h
  · split at h <;> cases h

theorem TInv.kill {t : TState} {m : Mem} {w k : Code} {i : Instr} {s0 s' : State} {ev : ShEv}
    {R : W} {n : Nat} (h : TInv t m) (e : t.ctl = .busy w (i :: k) s0 ev R n)
    (hx : exec i (t.state m) = .trap s') :
    ∃ l, Replay t.hist l ∧ ShDies ev l ∧ Traps w s0 := by
  obtain rfl := exec_trap hx
  unfold TInv at h
  rw [e] at h
  obtain ⟨l, h1, h2, h3, s, h4, h5, h6⟩ := h
  have ht : Traps w s0 := traps_iff.2 ⟨s, h4.ends (ends_trap rfl)⟩
  exact ⟨l, h1, h3.traps h2 ht, ht⟩

theorem MInv.step {m m' : Mach ι} (h : MInv m) (hs : MStep m m') : MInv m' := by
  cases hs with
  | spawn t a s' e hfree hi =>
    have hc := C14_init_empty hi
    refine h.set t _ _ ⟨[], .nil, hc.1.keep rfl fun _ _ => rfl⟩ ?_ ?_
    · intro u hu x hx
      refine hc.2.2.2.2.2 x fun hr => hfree u hu x (inRange_sub hr ?_) hx
      rw [BitVec.sub_self]; decide
    · intro u hu x hx
      exact hfree u hu x hx
  | work t c mem' e hg hm =>
    refine h.set t _ _ ?_ (fun u _ x hx => hm u x hx) ?_
    · have ht := h.thread t
      have hown := hm t
      unfold TInv at ht
      unfold TState.Owns at hown
      rw [e] at ht hown
      obtain ⟨l, h1, h2⟩ := ht
      unfold TInv
      simp only [e]
      exact ⟨l, h1, recorded_region (s' := { m.thr t with cpu := c }.state mem') h2 hg hown⟩
    · intro u hu x hx
      refine h.apart t u hu.symm x ?_
      unfold TState.Owns at hx ⊢
      exact hx
  | start t code ev R n e hst hfree =>
    have ht := h.thread t
    unfold TInv at ht
    rw [e] at ht
    obtain ⟨l, h1, h2⟩ := ht
    refine h.set t _ _ ?_ (fun _ _ _ _ => rfl) ?_
    · exact ⟨l, h1, h2, hst, _, .refl, hst.within h2, ⟨rfl, rfl, rfl, fun _ _ => rfl⟩⟩
    · intro u hu x hx
      rcases hx with hx | hx
      · refine h.apart t u hu.symm x ?_
        unfold TState.Owns
        rw [e]; exact hx
      · exact hfree u hu x hx
  | instr t w k k' s0 ev R n s' e hg =>
    obtain ⟨a, b⟩ := (h.thread t).instr e hg
    refine h.set t _ _ a (fun u hu x hx => b x (h.apart u t hu x hx)) ?_
    intro u hu x hx
    refine h.apart t u hu.symm x ?_
    unfold TState.Owns
    rw [e]; exact hx
  | finish t w s0 ev R n e =>
    refine h.set t _ _ ((h.thread t).finish e) (fun _ _ _ _ => rfl) ?_
    intro u hu x hx
    refine h.apart t u hu.symm x ?_
    unfold TState.Owns
    rw [e]; exact Or.inl hx
  | kill t w k i s0 ev R n s' e hx =>
    refine h.set t _ _ trivial (fun _ _ _ _ => rfl) ?_
    intro u hu x hx
    exact hx.elim

omit [DecidableEq ι] in
theorem Mach.Initial.inv {m : Mach ι} (h : m.Initial) : MInv m := by
  refine ⟨fun t u _ x hx => ?_, fun t => ?_⟩
  · unfold TState.Owns at hx
    rw [(h t).1] at hx; exact hx.elim
  · unfold TInv
    rw [(h t).1]; trivial

theorem MInv.run {m m' : Mach ι} (h : MInv m) (hr : MRun m m') : MInv m' := by
  induction hr with
  | refl => exact h
  | step _ hs ih => exact ih.step hs

end Verif
