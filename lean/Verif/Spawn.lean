import Verif.Threads

/-!
# Thread creation (`/repo/src/runtime.c:38-81`)

The library's `pthread_create` and the start routine it passes on, statement by statement, in a
process in which any number of threads run and create threads.  The order of the two loads in
`info->original_fn(info->original_arg)` is fixed; the memory they read does not change between
them.  `dlsym` is taken to find the real function.  What the threads do with their shadow stacks
afterwards is in `Threads.lean`.
-/

namespace Verif

/-- A request: start routine and argument. -/
structure Req where
  fn : W
  arg : W
  deriving DecidableEq

/-- Where a thread is. -/
inductive Pc where
  /-- does not exist -/
  | off
  /-- before the constructor, `/repo/src/runtime.c:38` -/
  | boot
  /-- in the program -/
  | user
  /-- in `pthread_create`, `/repo/src/runtime.c:72-74` -/
  | look (q : Req)
  /-- `/repo/src/runtime.c:76` -/
  | alloc (q : Req)
  /-- `/repo/src/runtime.c:77` -/
  | storeArg (q : Req) (info : W)
  /-- `/repo/src/runtime.c:78` -/
  | storeFn (q : Req) (info : W)
  /-- `/repo/src/runtime.c:80` -/
  | create (q : Req) (info : W)
  /-- at the beginning of `__pthread_fn_wrapper`, `/repo/src/runtime.c:61` -/
  | wrapper (info : W)
  /-- `/repo/src/runtime.c:65`, before the first load -/
  | ready (info : W)
  /-- between the loads -/
  | loaded (info fn : W)
  | ended

/-- One thread: position, processor, the calls which `__pthread_fn_wrapper` has made in it, and
the request for which it was created. -/
structure SThread where
  pc : Pc := .off
  cpu : Cpu
  calls : List Req := []
  asked : Option Req := none

/-- The process: memory, the blocks which the library and the program have got from `malloc` and
not freed, the static variable `real_create`, the threads. -/
structure SProc (ι : Type) where
  mem : Mem
  rt : List (W × Nat) := []
  user : List (W × Nat) := []
  real : Bool := false
  crashed : Bool := false
  thr : ι → SThread

/-- `sizeof(pthread_fn_info)` -/
def infoSize : Nat := 16

variable {ι : Type} [DecidableEq ι]

/-- The thread `t` changes. -/
def SProc.put (p : SProc ι) (t : ι) (x : SThread) : SProc ι :=
  { p with thr := fun u => if u = t then x else p.thr u }

/-- What `malloc` may return. -/
def SProc.Fresh (p : SProc ι) (a : W) (n : Nat) : Prop :=
  ∀ b, b ∈ p.rt ∨ b ∈ p.user → Sep a n b.1 b.2

/-- What a thread sees. -/
def SThread.state (t : SThread) (m : Mem) : State := ⟨t.cpu.regs, t.cpu.flags, t.cpu.gs, m⟩

/-- The thread has its shadow region. -/
def Pc.Inited : Pc → Prop
  | .off | .boot | .wrapper _ => False
  | _ => True

/-- The `pthread_fn_info` a thread is working with. -/
def Pc.info : Pc → Option W
  | .storeArg _ a | .storeFn _ a | .create _ a | .wrapper a | .ready a | .loaded a _ => some a
  | _ => none

/-- The bytes which only this thread may write. -/
def SThread.Holds (t : SThread) (x : W) : Prop :=
  (t.pc.Inited ∧ InRange x t.cpu.gs regionSize) ∨ ∃ a, t.pc.info = some a ∧ InRange x a infoSize

/-- One step of thread `t`.  A crash is a store through a null pointer, or `abort()`. -/
inductive SStep (t : ι) : SProc ι → SProc ι → Prop
  /-- the program's instructions, which leave the other threads' areas alone -/
  | work {p : SProc ι} {c : Cpu} {mem' : Mem} : (p.thr t).pc = .user → c.gs = (p.thr t).cpu.gs →
      (∀ u, u ≠ t → ∀ x, (p.thr u).Holds x → mem' x = p.mem x) →
      SStep t p ({ p with mem := mem' }.put t { p.thr t with cpu := c })
  /-- the program's own use of the allocator -/
  | malloc {p : SProc ι} {a : W} {n : Nat} : (p.thr t).pc = .user → p.Fresh a n →
      SStep t p { p with user := (a, n) :: p.user }
  | free {p : SProc ι} {b : W × Nat} : (p.thr t).pc = .user → b ∈ p.user →
      SStep t p { p with user := p.user.erase b }
  /-- the constructor -/
  | boot {p : SProc ι} {a : W} {s : State} : (p.thr t).pc = .boot → p.Fresh a regionSize →
      initStack true a ((p.thr t).state p.mem) = some s →
      SStep t p ({ p with mem := s.mem, rt := (a, regionSize) :: p.rt }.put t
        { p.thr t with pc := .user, cpu := s.cpu })
  /-- the program calls `pthread_create` -/
  | call {p : SProc ι} {q : Req} : (p.thr t).pc = .user →
      SStep t p (p.put t { p.thr t with pc := .look q })
  | look {p : SProc ι} {q : Req} : (p.thr t).pc = .look q →
      SStep t p ({ p with real := true }.put t { p.thr t with pc := .alloc q })
  | alloc {p : SProc ι} {q : Req} {a : W} : (p.thr t).pc = .alloc q → p.Fresh a infoSize →
      SStep t p ({ p with rt := (a, infoSize) :: p.rt }.put t { p.thr t with pc := .storeArg q a })
  /-- `malloc` returns NULL -/
  | allocFail {p : SProc ι} {q : Req} : (p.thr t).pc = .alloc q → SStep t p { p with crashed := true }
  | storeArg {p : SProc ι} {q : Req} {a : W} : (p.thr t).pc = .storeArg q a →
      SStep t p ({ p with mem := p.mem.write64 a q.arg }.put t { p.thr t with pc := .storeFn q a })
  | storeFn {p : SProc ι} {q : Req} {a : W} : (p.thr t).pc = .storeFn q a →
      SStep t p ({ p with mem := p.mem.write64 (a + 8) q.fn }.put t
        { p.thr t with pc := .create q a })
  /-- the real function makes a thread and returns 0 -/
  | create {p : SProc ι} {q : Req} {a : W} {u : ι} {c : Cpu} : (p.thr t).pc = .create q a → u ≠ t →
      (p.thr u).pc = .off →
      SStep t p ((p.put t { p.thr t with pc := .user }).put u
        { pc := .wrapper a, cpu := c, calls := [], asked := some q })
  /-- the real function returns an error -/
  | createFail {p : SProc ι} {q : Req} {a : W} : (p.thr t).pc = .create q a →
      SStep t p (p.put t { p.thr t with pc := .user })
  /-- `__pthread_fn_wrapper` -/
  | init {p : SProc ι} {info a : W} {s : State} : (p.thr t).pc = .wrapper info →
      p.Fresh a regionSize → initStack true a ((p.thr t).state p.mem) = some s →
      SStep t p ({ p with mem := s.mem, rt := (a, regionSize) :: p.rt }.put t
        { p.thr t with pc := .ready info, cpu := s.cpu })
  /-- `malloc` returns NULL, or `arch_prctl` fails -/
  | initFail {p : SProc ι} {info : W} : (p.thr t).pc = .wrapper info →
      SStep t p { p with crashed := true }
  | load {p : SProc ι} {info : W} : (p.thr t).pc = .ready info →
      SStep t p (p.put t { p.thr t with pc := .loaded info (p.mem.read64 (info + 8)) })
  | enter {p : SProc ι} {info fn : W} : (p.thr t).pc = .loaded info fn →
      SStep t p (p.put t { p.thr t with
        pc := .user, calls := (p.thr t).calls ++ [⟨fn, p.mem.read64 info⟩] })
  /-- the thread ends -/
  | finish {p : SProc ι} : (p.thr t).pc = .user →
      SStep t p (p.put t { p.thr t with pc := .ended })

/-- Executions: any schedule, until the process crashes. -/
inductive SRun : SProc ι → SProc ι → Prop
  | refl {p} : SRun p p
  | step {p p' p''} (t : ι) : SRun p p' → p'.crashed = false → SStep t p' p'' → SRun p p''

/-- The process before the constructor runs: one thread. -/
structure SProc.Initial (p : SProc ι) (main : ι) : Prop where
  rt : p.rt = []
  pc : (p.thr main).pc = .boot
  rest : ∀ u, u ≠ main → (p.thr u).pc = .off
  calls : ∀ u, (p.thr u).calls = [] ∧ (p.thr u).asked = none

/-! ## Lemmas -/

omit [DecidableEq ι] in
theorem put_thr [DecidableEq ι] (p : SProc ι) (t u : ι) (x : SThread) :
    (p.put t x).thr u = if u = t then x else p.thr u := rfl

/-- The blocks of a thread. -/
def SThread.Has (t : SThread) (b : W × Nat) : Prop :=
  (t.pc.Inited ∧ b = (t.cpu.gs, regionSize)) ∨ ∃ a, t.pc.info = some a ∧ b = (a, infoSize)

theorem SThread.Holds.block {t : SThread} {x : W} (h : t.Holds x) :
    ∃ b, t.Has b ∧ InRange x b.1 b.2 := by
  rcases h with ⟨h1, h2⟩ | ⟨a, h1, h2⟩
  · exact ⟨_, .inl ⟨h1, rfl⟩, h2⟩
  · exact ⟨_, .inr ⟨a, h1, rfl⟩, h2⟩

theorem SThread.Has.holds {t : SThread} {b : W × Nat} (h : t.Has b) {x : W}
    (hx : InRange x b.1 b.2) : t.Holds x := by
  rcases h with ⟨h1, rfl⟩ | ⟨a, h1, rfl⟩
  · exact .inl ⟨h1, hx⟩
  · exact .inr ⟨a, h1, hx⟩

/-- The request of a thread that has not called it yet is what its `info` holds. -/
def InfoOk' (m : Mem) (t : SThread) : Prop :=
  match t.pc with
  | .storeFn q a => m.read64 a = q.arg
  | .create q a => m.read64 a = q.arg ∧ m.read64 (a + 8) = q.fn
  | .wrapper a | .ready a => ∃ q, t.asked = some q ∧ m.read64 a = q.arg ∧ m.read64 (a + 8) = q.fn
  | .loaded a fn => ∃ q, t.asked = some q ∧ m.read64 a = q.arg ∧ m.read64 (a + 8) = q.fn ∧ fn = q.fn
  | _ => True

/-- Calls made so far. -/
def CallsOk (t : SThread) : Prop :=
  match t.pc with
  | .wrapper _ | .ready _ | .loaded _ _ => t.calls = []
  | .off | .boot => t.calls = [] ∧ t.asked = none
  | _ => t.calls = t.asked.toList

/-- A thread that has not yet entered the program has an empty shadow stack. -/
def EmptyOk (m : Mem) (t : SThread) : Prop :=
  match t.pc with
  | .ready _ | .loaded _ _ => Recorded t.cpu.gs [] (t.state m)
  | _ => True

/-- The invariant: blocks of different threads are apart, and every thread has what the runtime gave it. -/
structure SInv (p : SProc ι) : Prop where
  mine : ∀ t b, (p.thr t).Has b → b ∈ p.rt
  apart : ∀ t u, t ≠ u → ∀ b c, (p.thr t).Has b → (p.thr u).Has c → Sep b.1 b.2 c.1 c.2
  self : ∀ t a, (p.thr t).pc.info = some a → (p.thr t).pc.Inited →
    Sep a infoSize (p.thr t).cpu.gs regionSize
  info : ∀ t, InfoOk' p.mem (p.thr t)
  calls : ∀ t, CallsOk (p.thr t)
  empty : ∀ t, EmptyOk p.mem (p.thr t)
  rt : p.rt.Pairwise fun b c => Sep b.1 b.2 c.1 c.2

theorem infoRange {x a : W} (h : InRange x a 8 ∨ InRange x (a + 8) 8) : InRange x a infoSize := by
  have : infoSize = 16 := rfl
  rcases h with h | h
  · unfold InRange at *; omega
  · refine inRange_sub h ?_
    have : a + 8 - a = (8 : W) := by bv_omega
    rw [this]; decide

theorem InfoOk'.frame {m m' : Mem} {t : SThread} (h : InfoOk' m t)
    (hm : ∀ x, t.Holds x → m' x = m x) : InfoOk' m' t := by
  have key : ∀ a, t.pc.info = some a →
      m'.read64 a = m.read64 a ∧ m'.read64 (a + 8) = m.read64 (a + 8) := fun a ha =>
    ⟨read64_eq _ _ _ fun x hx => hm x (.inr ⟨a, ha, infoRange (.inl hx)⟩),
      read64_eq _ _ _ fun x hx => hm x (.inr ⟨a, ha, infoRange (.inr hx)⟩)⟩
  unfold InfoOk' at h ⊢
  cases e : t.pc with
  | storeFn q a => rw [e] at h key; simp only at h ⊢; rw [(key a rfl).1]; exact h
  | create q a =>
    rw [e] at h key; simp only at h ⊢; rw [(key a rfl).1, (key a rfl).2]; exact h
  | wrapper a =>
    rw [e] at h key; simp only at h ⊢; rw [(key a rfl).1, (key a rfl).2]; exact h
  | ready a =>
    rw [e] at h key; simp only at h ⊢; rw [(key a rfl).1, (key a rfl).2]; exact h
  | loaded a f =>
    rw [e] at h key; simp only at h ⊢; rw [(key a rfl).1, (key a rfl).2]; exact h
  | _ => trivial

theorem Recorded.frame {g : W} {l : List W} {s s' : State} (h : Recorded g l s) (hg : s'.gs = s.gs)
    (hm : ∀ x, InRange x g regionSize → s'.mem x = s.mem x) : Recorded g l s' := by
  refine h.keep hg fun x hx => hm x ?_
  have hr : regionSize = 8388608 := rfl
  rcases hx with hx | hx
  · unfold InRange at *; omega
  · refine inRange_sub hx ?_
    have : g + 16 - g = (16 : W) := by bv_omega
    rw [this]; decide

theorem EmptyOk.frame {m m' : Mem} {t : SThread} (h : EmptyOk m t)
    (hm : ∀ x, t.Holds x → m' x = m x) : EmptyOk m' t := by
  unfold EmptyOk at h ⊢
  cases e : t.pc with
  | ready a =>
    rw [e] at h
    exact Recorded.frame h rfl fun x hx => hm x (.inl ⟨by rw [e]; trivial, hx⟩)
  | loaded a f =>
    rw [e] at h
    exact Recorded.frame h rfl fun x hx => hm x (.inl ⟨by rw [e]; trivial, hx⟩)
  | _ => trivial

/-- One thread and the memory change. -/
theorem SInv.set {p : SProc ι} (h : SInv p) {t : ι} {x : SThread} {p' : SProc ι}
    (hthr : p'.thr = fun u => if u = t then x else p.thr u)
    (hmem : ∀ u, u ≠ t → ∀ y, (p.thr u).Holds y → p'.mem y = p.mem y)
    (hrt : ∀ b, b ∈ p.rt → b ∈ p'.rt) (hpw : p'.rt.Pairwise fun b c => Sep b.1 b.2 c.1 c.2)
    (hmine : ∀ b, x.Has b → b ∈ p'.rt)
    (hsep : ∀ u, u ≠ t → ∀ b c, x.Has b → (p.thr u).Has c → Sep b.1 b.2 c.1 c.2)
    (hself : ∀ a, x.pc.info = some a → x.pc.Inited → Sep a infoSize x.cpu.gs regionSize)
    (hinfo : InfoOk' p'.mem x) (hcalls : CallsOk x) (hempty : EmptyOk p'.mem x) : SInv p' := by
  have same : p'.thr t = x := by rw [hthr]; exact if_pos rfl
  have other : ∀ u, u ≠ t → p'.thr u = p.thr u := fun u hu => by rw [hthr]; exact if_neg hu
  refine ⟨fun u b hb => ?_, fun u v huv b c hb hc => ?_, fun u a h1 h2 => ?_, fun u => ?_,
    fun u => ?_, fun u => ?_, hpw⟩
  all_goals by_cases hu : u = t
  · subst hu; rw [same] at hb; exact hmine b hb
  · rw [other u hu] at hb; exact hrt b (h.mine u b hb)
  · subst hu
    rw [same] at hb
    rw [other v (Ne.symm huv)] at hc
    exact hsep v (Ne.symm huv) b c hb hc
  · rw [other u hu] at hb
    by_cases hv : v = t
    · subst hv
      rw [same] at hc
      exact (hsep u hu c b hc hb).symm
    · rw [other v hv] at hc
      exact h.apart u v huv b c hb hc
  · subst hu; rw [same] at h1 h2 ⊢; exact hself a h1 h2
  · rw [other u hu] at h1 h2 ⊢; exact h.self u a h1 h2
  · subst hu; rw [same]; exact hinfo
  · rw [other u hu]; exact (h.info u).frame (hmem u hu)
  · subst hu; rw [same]; exact hcalls
  · rw [other u hu]; exact h.calls u
  · subst hu; rw [same]; exact hempty
  · rw [other u hu]; exact (h.empty u).frame (hmem u hu)

omit [DecidableEq ι] in
/-- Nothing but things outside the invariant changes. -/
theorem SInv.same {p p' : SProc ι} (h : SInv p) (h1 : p'.thr = p.thr) (h2 : p'.mem = p.mem)
    (h3 : p'.rt = p.rt) : SInv p' :=
  ⟨fun t b hb => by rw [h1] at hb; rw [h3]; exact h.mine t b hb,
    fun t u => by rw [h1]; exact h.apart t u,
    fun t a => by rw [h1]; exact h.self t a,
    fun t => by rw [h1, h2]; exact h.info t,
    fun t => by rw [h1]; exact h.calls t,
    fun t => by rw [h1, h2]; exact h.empty t,
    by rw [h3]; exact h.rt⟩

/-- The blocks of a thread whose position changes. -/
theorem has_pc {y : SThread} {b : W × Nat} (h : y.Has b) (x : SThread) (hg : y.cpu.gs = x.cpu.gs)
    (hi : y.pc.Inited → x.pc.Inited) (ha : ∀ a, y.pc.info = some a → x.pc.info = some a) :
    x.Has b := by
  rcases h with ⟨h1, rfl⟩ | ⟨a, h1, rfl⟩
  · exact .inl ⟨hi h1, by rw [hg]⟩
  · exact .inr ⟨a, ha a h1, rfl⟩

omit [DecidableEq ι] in
theorem write_other {p : SProc ι} (h : SInv p) {t : ι} {a : W} (ha : (p.thr t).pc.info = some a)
    {w v : W} (hw : ∀ y, InRange y w 8 → InRange y a infoSize) (u : ι) (hu : u ≠ t) (y : W)
    (hy : (p.thr u).Holds y) : p.mem.write64 w v y = p.mem y := by
  refine write64_outRange _ _ _ _ fun hc => ?_
  obtain ⟨b, hb, hyb⟩ := hy.block
  exact sep_not_inRange (h.apart u t hu b _ hb (.inr ⟨a, ha, rfl⟩)) hyb (hw y hc)

/-- Initialisation of a region. -/
theorem SInv.init {p p' : SProc ι} (h : SInv p) {t : ι} {a : W} {s : State} {x : SThread}
    (hf : p.Fresh a regionSize)
    (hs : initStack true a ((p.thr t).state p.mem) = some s)
    (hthr : p'.thr = fun u => if u = t then x else p.thr u) (hmem : p'.mem = s.mem)
    (hrt : p'.rt = (a, regionSize) :: p.rt) (hcpu : x.cpu = s.cpu)
    (hinfo : x.pc.info = (p.thr t).pc.info)
    (hIn : InfoOk' p.mem (p.thr t) → (∀ y, (p.thr t).Holds y → p'.mem y = p.mem y) →
      InfoOk' p'.mem x)
    (hcalls : CallsOk x) (hempty : Recorded a [] s → EmptyOk p'.mem x) : SInv p' := by
  obtain ⟨hrec, _, _, _, _, hframe⟩ := C14_init_empty hs
  have hr : regionSize = 8388608 := rfl
  have hgs : x.cpu.gs = a := by rw [hcpu]; exact hrec.gs
  have hfr : ∀ u b, (p.thr u).Has b → Sep a regionSize b.1 b.2 := fun u b hb =>
    hf b (.inl (h.mine u b hb))
  have hm : ∀ u y, (p.thr u).Holds y → p'.mem y = p.mem y := by
    intro u y hy
    rw [hmem]
    obtain ⟨b, hb, hyb⟩ := hy.block
    refine hframe y fun hc => ?_
    refine sep_not_inRange (hfr u b hb) ?_ hyb
    unfold InRange at *; omega
  refine h.set hthr (fun u _ => hm u) (fun b hb => by rw [hrt]; exact List.mem_cons_of_mem _ hb)
    ?_ ?_ ?_ ?_ (hIn (h.info t) (hm t)) hcalls (hempty hrec)
  · rw [hrt, List.pairwise_cons]
    exact ⟨fun b hb => hf b (.inl hb), h.rt⟩
  · rintro b (⟨_, rfl⟩ | ⟨c, h1, rfl⟩)
    · rw [hrt, hgs]; exact List.mem_cons_self
    · rw [hrt]
      exact List.mem_cons_of_mem _ (h.mine t _ (.inr ⟨c, by rw [← hinfo]; exact h1, rfl⟩))
  · rintro u hu b c (⟨_, rfl⟩ | ⟨d, h1, rfl⟩) hc
    · rw [hgs]; exact hfr u c hc
    · exact h.apart t u (Ne.symm hu) _ c (.inr ⟨d, by rw [← hinfo]; exact h1, rfl⟩) hc
  · intro c hc _
    rw [hgs]
    exact (hfr t _ (.inr ⟨c, by rw [← hinfo]; exact hc, rfl⟩)).symm

theorem SInv.step {p p' : SProc ι} (h : SInv p) {t : ι} (hs : SStep t p p') : SInv p' := by
  have same : ∀ u, u ≠ t → ∀ y, (p.thr u).Holds y → p.mem y = p.mem y := fun _ _ _ _ => rfl
  have hi := h.info t
  have hc := h.calls t
  have he := h.empty t
  cases hs with
  | work e hg hm =>
    refine h.set (t := t) rfl hm (fun _ hb => hb) h.rt
      (fun b hb => h.mine t b (has_pc hb (p.thr t) hg id (fun _ => id)))
      (fun u hu b c hb => h.apart t u (Ne.symm hu) b c (has_pc hb (p.thr t) hg id (fun _ => id)))
      (fun a ha _ => ?_) ?_ ?_ ?_
    · simp only [e] at ha; cases ha
    · unfold InfoOk'; simp only [e]
    · exact hc
    · unfold EmptyOk; simp only [e]
  | malloc _ _ => exact h.same rfl rfl rfl
  | free _ _ => exact h.same rfl rfl rfl
  | boot e hf hst =>
    refine h.init (t := t) hf hst rfl rfl rfl rfl (by rw [e]; rfl)
      (fun _ _ => trivial) ?_ (fun _ => trivial)
    unfold CallsOk at hc ⊢
    rw [e] at hc
    simp only [hc.1, hc.2]; rfl
  | @call q e =>
    have hp : ∀ {b}, SThread.Has { p.thr t with pc := .look q } b → (p.thr t).Has b :=
      fun hb => has_pc hb (p.thr t) rfl (fun _ => by rw [e]; trivial) (fun _ ha => by cases ha)
    refine h.set (t := t) rfl same (fun _ hb => hb) h.rt (fun b hb => h.mine t b (hp hb))
      (fun u hu b c hb => h.apart t u (Ne.symm hu) b c (hp hb)) (fun a ha _ => by cases ha)
      trivial ?_ trivial
    unfold CallsOk at hc ⊢
    rw [e] at hc
    exact hc
  | @look q e =>
    have hp : ∀ {b}, SThread.Has { p.thr t with pc := .alloc q } b → (p.thr t).Has b :=
      fun hb => has_pc hb (p.thr t) rfl (fun _ => by rw [e]; trivial) (fun _ ha => by cases ha)
    refine h.set (t := t) rfl same (fun _ hb => hb) h.rt (fun b hb => h.mine t b (hp hb))
      (fun u hu b c hb => h.apart t u (Ne.symm hu) b c (hp hb)) (fun a ha _ => by cases ha)
      trivial ?_ trivial
    unfold CallsOk at hc ⊢
    rw [e] at hc
    exact hc
  | @alloc q a e hf =>
    have hreg : (p.thr t).Has ((p.thr t).cpu.gs, regionSize) := .inl ⟨by rw [e]; trivial, rfl⟩
    refine h.set (t := t) rfl same (fun _ hb => List.mem_cons_of_mem _ hb)
      (List.pairwise_cons.2 ⟨fun b hb => hf b (.inl hb), h.rt⟩) ?_ ?_ ?_ trivial ?_ trivial
    · rintro b (⟨_, rfl⟩ | ⟨c, h1, rfl⟩)
      · exact List.mem_cons_of_mem _ (h.mine t _ hreg)
      · cases h1; exact List.mem_cons_self
    · rintro u hu b c (⟨_, rfl⟩ | ⟨d, h1, rfl⟩) hcc
      · exact h.apart t u (Ne.symm hu) _ c hreg hcc
      · cases h1; exact hf c (.inl (h.mine u c hcc))
    · intro c h1 _
      cases h1
      exact hf _ (.inl (h.mine t _ hreg))
    · unfold CallsOk at hc ⊢
      rw [e] at hc
      exact hc
  | allocFail _ => exact h.same rfl rfl rfl
  | @storeArg q a e =>
    have hp : ∀ {b}, SThread.Has { p.thr t with pc := .storeFn q a } b → (p.thr t).Has b :=
      fun hb => has_pc hb (p.thr t) rfl (fun _ => by rw [e]; trivial) (fun _ ha => by rw [e]; exact ha)
    refine h.set (t := t) rfl (write_other h (by rw [e]; rfl) (fun y hy => infoRange (.inl hy)))
      (fun _ hb => hb) h.rt (fun b hb => h.mine t b (hp hb))
      (fun u hu b c hb => h.apart t u (Ne.symm hu) b c (hp hb))
      (fun c h1 _ => h.self t c (by rw [e]; exact h1) (by rw [e]; trivial)) ?_ ?_ trivial
    · exact read64_write64 _ _ _
    · unfold CallsOk at hc ⊢
      rw [e] at hc
      exact hc
  | @storeFn q a e =>
    have hp : ∀ {b}, SThread.Has { p.thr t with pc := .create q a } b → (p.thr t).Has b :=
      fun hb => has_pc hb (p.thr t) rfl (fun _ => by rw [e]; trivial) (fun _ ha => by rw [e]; exact ha)
    refine h.set (t := t) rfl (write_other h (by rw [e]; rfl) (fun y hy => infoRange (.inr hy)))
      (fun _ hb => hb) h.rt (fun b hb => h.mine t b (hp hb))
      (fun u hu b c hb => h.apart t u (Ne.symm hu) b c (hp hb))
      (fun c h1 _ => h.self t c (by rw [e]; exact h1) (by rw [e]; trivial)) ?_ ?_ trivial
    · unfold InfoOk' at hi
      rw [e] at hi
      refine ⟨?_, read64_write64 _ _ _⟩
      show (p.mem.write64 (a + 8) q.fn).read64 a = q.arg
      rw [read64_write64_sep _ _ _ _ (by
        have := sep_offsets a (a := 0) (n := 8) (b := 8) (m := 8) (by decide) (by decide)
          (.inl (by decide)) (by decide) (by decide)
        rwa [gs_zero] at this)]
      exact hi
    · unfold CallsOk at hc ⊢
      rw [e] at hc
      exact hc
  | @create q a u c e hut hu =>
    have hinfo : (p.thr t).Has (a, infoSize) := .inr ⟨a, by rw [e]; rfl, rfl⟩
    have hp : ∀ {b}, SThread.Has { p.thr t with pc := .user } b → (p.thr t).Has b :=
      fun hb => has_pc hb (p.thr t) rfl (fun _ => by rw [e]; trivial) (fun _ ha => by cases ha)
    have h1 : SInv (p.put t { p.thr t with pc := .user }) := by
      refine h.set (t := t) rfl same (fun _ hb => hb) h.rt (fun b hb => h.mine t b (hp hb))
        (fun u hu b c hb => h.apart t u (Ne.symm hu) b c (hp hb)) (fun a ha _ => by cases ha)
        trivial ?_ trivial
      unfold CallsOk at hc ⊢
      rw [e] at hc
      exact hc
    refine h1.set (t := u) rfl (fun _ _ _ _ => rfl) (fun _ hb => hb) h.rt ?_ ?_ ?_ ?_ rfl trivial
    · rintro b (⟨h2, rfl⟩ | ⟨d, h2, rfl⟩)
      · exact absurd h2 id
      · cases h2; exact h.mine t _ hinfo
    · rintro v hv b d (⟨h2, rfl⟩ | ⟨f, h2, rfl⟩) hd
      · exact absurd h2 id
      · cases h2
        rw [put_thr] at hd
        by_cases hvt : v = t
        · subst hvt
          rw [if_pos rfl] at hd
          rcases hd with ⟨_, rfl⟩ | ⟨f, h2, rfl⟩
          · exact h.self v a (by rw [e]; rfl) (by rw [e]; trivial)
          · cases h2
        · rw [if_neg hvt] at hd
          exact h.apart t v (Ne.symm hvt) _ d hinfo hd
    · intro f _ h2; exact absurd h2 id
    · unfold InfoOk' at hi
      rw [e] at hi
      exact ⟨q, rfl, hi⟩
  | createFail e =>
    have hp : ∀ {b}, SThread.Has { p.thr t with pc := .user } b → (p.thr t).Has b :=
      fun hb => has_pc hb (p.thr t) rfl (fun _ => by rw [e]; trivial) (fun _ ha => by cases ha)
    refine h.set (t := t) rfl same (fun _ hb => hb) h.rt (fun b hb => h.mine t b (hp hb))
      (fun u hu b c hb => h.apart t u (Ne.symm hu) b c (hp hb)) (fun a ha _ => by cases ha)
      trivial ?_ trivial
    unfold CallsOk at hc ⊢
    rw [e] at hc
    exact hc
  | @init info a s e hf hst =>
    refine h.init (t := t) hf hst rfl rfl rfl rfl (by rw [e]; rfl)
      (fun h1 h2 => ?_) ?_ (fun h1 => ?_)
    · have h3 := InfoOk'.frame h1 h2
      unfold InfoOk' at h3 ⊢
      rw [e] at h3
      exact h3
    · unfold CallsOk at hc ⊢
      rw [e] at hc
      exact hc
    · unfold EmptyOk
      show Recorded s.gs [] _
      rw [h1.gs]; exact h1
  | initFail _ => exact h.same rfl rfl rfl
  | @load info e =>
    have hp : ∀ {b}, SThread.Has { p.thr t with pc := .loaded info (p.mem.read64 (info + 8)) } b →
        (p.thr t).Has b :=
      fun hb => has_pc hb (p.thr t) rfl (fun _ => by rw [e]; trivial) (fun _ ha => by rw [e]; exact ha)
    refine h.set (t := t) rfl same (fun _ hb => hb) h.rt (fun b hb => h.mine t b (hp hb))
      (fun u hu b c hb => h.apart t u (Ne.symm hu) b c (hp hb))
      (fun c h1 _ => h.self t c (by rw [e]; exact h1) (by rw [e]; trivial)) ?_ ?_ ?_
    · unfold InfoOk' at hi
      rw [e] at hi
      obtain ⟨q, h1, h2, h3⟩ := hi
      exact ⟨q, h1, h2, h3, h3⟩
    · unfold CallsOk at hc ⊢
      rw [e] at hc
      exact hc
    · unfold EmptyOk at he ⊢
      rw [e] at he
      exact he
  | @enter info fn e =>
    have hp : ∀ {b}, SThread.Has { p.thr t with
          pc := .user, calls := (p.thr t).calls ++ [⟨fn, p.mem.read64 info⟩] } b →
        (p.thr t).Has b :=
      fun hb => has_pc hb (p.thr t) rfl (fun _ => by rw [e]; trivial) (fun _ ha => by cases ha)
    refine h.set (t := t) rfl same (fun _ hb => hb) h.rt (fun b hb => h.mine t b (hp hb))
      (fun u hu b c hb => h.apart t u (Ne.symm hu) b c (hp hb)) (fun c h1 _ => by cases h1)
      trivial ?_ trivial
    unfold InfoOk' at hi
    unfold CallsOk at hc ⊢
    rw [e] at hi hc
    obtain ⟨q, h1, h2, _, h4⟩ := hi
    simp only at hc
    simp only [hc, h1, h2, h4]; rfl
  | finish e =>
    have hp : ∀ {b}, SThread.Has { p.thr t with pc := .ended } b → (p.thr t).Has b :=
      fun hb => has_pc hb (p.thr t) rfl (fun _ => by rw [e]; trivial) (fun _ ha => by cases ha)
    refine h.set (t := t) rfl same (fun _ hb => hb) h.rt (fun b hb => h.mine t b (hp hb))
      (fun u hu b c hb => h.apart t u (Ne.symm hu) b c (hp hb)) (fun c h1 _ => by cases h1)
      trivial ?_ trivial
    unfold CallsOk at hc ⊢
    rw [e] at hc
    exact hc

theorem SProc.Initial.inv {p : SProc ι} {main : ι} (h : p.Initial main) : SInv p := by
  have hpc : ∀ t, (p.thr t).pc = .boot ∨ (p.thr t).pc = .off := fun t => by
    by_cases e : t = main
    · subst e; exact .inl h.pc
    · exact .inr (h.rest t e)
  have hno : ∀ t b, ¬ (p.thr t).Has b := by
    rintro t b (⟨h1, _⟩ | ⟨a, h1, _⟩) <;> rcases hpc t with e | e <;> rw [e] at h1 <;> cases h1
  refine ⟨fun t b hb => absurd hb (hno t b), fun t u _ b c hb _ => absurd hb (hno t b),
    fun t a h1 _ => ?_, fun t => ?_, fun t => ?_, fun t => ?_, ?_⟩
  · rcases hpc t with e | e <;> rw [e] at h1 <;> cases h1
  · unfold InfoOk'; rcases hpc t with e | e <;> rw [e] <;> trivial
  · unfold CallsOk; rcases hpc t with e | e <;> rw [e] <;> exact h.calls t
  · unfold EmptyOk; rcases hpc t with e | e <;> rw [e] <;> trivial
  · rw [h.rt]; exact List.Pairwise.nil

theorem SInv.run {p p' : SProc ι} (h : SInv p) (hr : SRun p p') : SInv p' := by
  induction hr with
  | refl => exact h
  | step t _ _ hs ih => exact ih.step hs

end Verif
