import Verif.Props.Whole

/-!
# C45, C58, C59: example programs and attacks
-/

namespace Verif

/-! ## Small programs -/

/-- A small program: for each function its blocks, the entry first, and its exits; edges; and
the blocks in which it writes to unknown addresses. -/
structure Small where
  blocks : List (List Blk)
  exits : List (List Blk)
  edges : List Edge
  danger : List Blk
  /-- blocks consisting of a return -/
  lone : List Blk := []
  /-- the stack height at the ends of blocks, if known -/
  height : Option Int := some (-8)
  /-- functions which do not return -/
  noret : List Func := []
  /-- functions in other sections than `.text` -/
  other : List Func := []
  /-- the addresses of the skip list -/
  skip : List Nat := []
  /-- the stubs of library functions -/
  stubs : List (Blk × List Char) := []

namespace Small
variable (p : Small)

def blocksOf (f : Func) : List Blk := (p.blocks[f]?).getD []

def exitsOf (f : Func) : List Blk := (p.exits[f]?).getD []

/-- The parsed code. -/
def code : CodeObj where
  funcs := List.range p.blocks.length
  addr f := 4096 + 16 * (p.blocksOf f).headD 0
  entry f := (p.blocksOf f).headD 0
  blocks := p.blocksOf
  exitBlocks := p.exitsOf
  targets b := p.edges.filter fun e => e.src = b
  start b := 4096 + 16 * b
  last b := 4096 + 16 * b + 8
  funcsAt b := (List.range p.blocks.length).filter fun f => (p.blocksOf f).contains b
  linkage a := (p.stubs.find? fun x => 4096 + 16 * x.1 = a).map Prod.snd

/-- Its instructions. -/
def info : StackInfo where
  insns b := if b ∈ p.danger then [{ addr := 4096 + 16 * b, writesMemory := true, outs := [.unknown] }] else []
  heightEnd := fun _ => p.height
  heightStart := fun _ => p.height

/-- The summaries. -/
def sums : Sums := (analyse p.code p.info fun _ => {}).getD fun _ => {}

/-- The functions as BPatch shows them. -/
def bfunc (f : Func) : BFunc where
  func := f
  name := "f"
  base := p.code.addr f
  cfg :=
    { entries := [p.code.entry f], exits := p.exitsOf f, blocks := p.blocksOf f
      out := fun b => (p.edges.filter fun e => e.src = b).filter fun e => Flow e
      writes := fun b => if b ∈ p.danger then [true, false] else [false]
      returns := fun b => if b ∈ p.lone then [true] else [false, true] }
  entryPoints := [p.code.entry f]
  exitPoints := p.exitsOf f
  start := p.code.start
  isInsn := fun _ _ => true
  noReturn := p.noret.contains f
  region := if f ∈ p.other then ".init" else ".text"

/-- What the instrumenter does. -/
def result (f : Func) : Option (Plan × Stats) :=
  instrumentFunction {} p.skip p.code (fun _ => some (p.sums f, [])) (p.bfunc f) {}

def plan (f : Func) : Plan :=
  if p.noret.contains f || p.other.contains f then .skipped
  else ((p.result f).map Prod.fst).getD .skipped

/-- The program is as Dyninst parses programs. -/
structure Ok : Prop where
  sums : (analyse p.code p.info fun _ => {}).isSome = true
  plans : ∀ f ∈ p.code.funcs, (p.result f).isSome = true
  addr : ∀ f ∈ p.code.funcs, ∀ g ∈ p.code.funcs, p.code.addr f = p.code.addr g → f = g
  oneCall : ∀ e ∈ p.edges, ∀ e' ∈ p.edges, e.src = e'.src → e.type = .call → e'.type = .call → e = e'
  entry : ∀ f ∈ p.code.funcs, p.code.entry f ∈ p.blocksOf f
  closed : ∀ f ∈ p.code.funcs, ∀ e ∈ p.edges, e.src ∈ p.blocksOf f → Flow e → e.trg ∈ p.blocksOf f
  ret : ∀ e ∈ p.edges, e.type = .ret → ¬ Follow e
  exits : ∀ f ∈ p.code.funcs, ∀ e ∈ p.edges, e.src ∈ p.exitsOf f → ¬ Follow e
  handler : ∀ f ∈ p.code.funcs, ∀ e ∈ p.edges, e.src ∈ p.exitsOf f → Flow e →
    ∃ e' ∈ p.edges, e'.src = e.src ∧ e'.type = .call
  nodup : ∀ f ∈ p.code.funcs, (p.exitsOf f).Nodup
  after : ∀ e ∈ p.edges, e.type = .callFt → Follow e
  resolved : ∀ e ∈ p.edges, e.type = .call → e.sink = false →
    (p.code.linkage (p.code.start e.trg)).isSome = true ∨
      ∃ g ∈ p.code.funcs, calleeAt p.code e.trg = some g
  exitIn : ∀ f ∈ p.code.funcs, ∀ b ∈ p.exitsOf f, b ∈ p.blocksOf f
  nodupEdges : ∀ f ∈ p.code.funcs, ((p.blocksOf f).flatMap ((p.bfunc f).cfg.out)).Nodup
  lone : ∀ b ∈ p.lone, b ∉ p.danger ∧ ∀ e ∈ p.edges, e.src = b → e.type ≠ .call
  callOut : ∀ e ∈ p.edges, e.type = .call → ∀ x ∈ p.edges, x.src = e.src → x.type ≠ .condTaken

variable {p}

theorem mem_targets {e : Edge} {b : Blk} : e ∈ p.code.targets b ↔ e ∈ p.edges ∧ e.src = b := by
  simp [code, List.mem_filter]

theorem Ok.analysed (h : p.Ok) : analyse p.code p.info (fun _ => {}) = some p.sums := by
  unfold Small.sums
  cases ha : analyse p.code p.info fun _ => {} with
  | none => have := h.sums; rw [ha] at this; cases this
  | some T => rfl

theorem Ok.code (h : p.Ok) : CodeOk p.code where
  nodup := List.nodup_range
  start f _ := rfl
  addr := h.addr
  last f _ b _ c _ hbc := by
    have hbc : 4096 + 16 * b + 8 = 4096 + 16 * c + 8 := hbc
    simp only [Nat.add_right_cancel_iff, Nat.add_left_cancel_iff] at hbc
    exact Nat.eq_of_mul_eq_mul_left (by decide) hbc
  oneCall b e he e' he' hc hc' := by
    rw [mem_targets] at he he'
    exact h.oneCall e he.1 e' he'.1 (he.2.trans he'.2.symm) hc hc'

theorem Ok.func (h : p.Ok) (f : Func) (hf : f ∈ p.code.funcs) : FuncOk p.code f where
  wf :=
    { src := fun b e he => (mem_targets.mp he).2
      entry := h.entry f hf
      closed := fun b hb e he hfo => by
        obtain ⟨h1, h2⟩ := mem_targets.mp he
        exact h.closed f hf e h1 (by rw [h2]; exact hb) hfo.flow
      ret := fun b e he => h.ret e (mem_targets.mp he).1 }
  exits b hb e he := by
    obtain ⟨h1, h2⟩ := mem_targets.mp he
    exact h.exits f hf e h1 (by rw [h2]; exact hb)
  nodup := h.nodup f hf
  after b _ e he := h.after e (mem_targets.mp he).1
  resolved b _ e he hc hs := by
    cases hl : p.code.linkage (p.code.start e.trg) with
    | some n => exact .inl ⟨n, hc, hs, hl⟩
    | none =>
      have := h.resolved e (mem_targets.mp he).1 hc hs
      rw [hl] at this
      obtain ⟨g, hg, hcg⟩ := this.resolve_left nofun
      exact .inr ⟨g, hg, hc, hs, hl, (calleeAt_iff _ _ _).mp hcg⟩
  exitIn := h.exitIn f hf

theorem mem_out {f : Func} {e : Edge} {b : Blk} :
    e ∈ (p.bfunc f).cfg.out b ↔ (e ∈ p.edges ∧ e.src = b) ∧ Flow e := by
  simp only [bfunc, List.mem_filter, decide_eq_true_eq]

theorem Ok.view (h : p.Ok) (f : Func) (hf : f ∈ p.code.funcs) : View p.code p.info (p.bfunc f) f where
  func := rfl
  base := rfl
  entries := rfl
  exits := rfl
  cfgEntries := rfl
  cfgExits _ := Iff.rfl
  out b _ e he hfo := mem_out.mpr ⟨mem_targets.mp he, hfo.flow⟩
  ok :=
    { src := fun b e he => (mem_out.mp he).1.2
      trg := fun b hb e he => by
        obtain ⟨⟨h1, h2⟩, h3⟩ := mem_out.mp he
        exact h.closed f hf e h1 (by rw [h2]; exact hb) h3
      entries := fun b hb => by
        have : b = p.code.entry f := by simpa [bfunc] using hb
        rw [this]; exact h.entry f hf
      exits := h.nodup f hf
      nodup := h.nodupEdges f hf }
  plain b hb hc := by
    cases ho : (p.bfunc f).cfg.out b with
    | nil => rfl
    | cons e l =>
      obtain ⟨⟨h1, h2⟩, h3⟩ := mem_out.mp (show e ∈ (p.bfunc f).cfg.out b by rw [ho]; simp)
      obtain ⟨e', k1, k2, k3⟩ := h.handler f hf e h1 (by rw [h2]; exact hb) h3
      exact absurd k3 (hc e' (mem_targets.mpr ⟨k1, k2.trans h2⟩))
  writes b _ i hi hw := by
    simp only [info] at hi
    split at hi
    · rename_i hd; simp [bfunc, hd]
    · cases hi
  ret b _ hr := by
    have hl : b ∈ p.lone := by
      simp only [bfunc] at hr
      split at hr
      · assumption
      · cases hr
    refine ⟨fun i hi => ?_, fun e he => ?_⟩
    · rw [info] at hi
      dsimp only at hi
      rw [if_neg (h.lone b hl).1] at hi
      cases hi
    · obtain ⟨h1, h2⟩ := mem_targets.mp he
      exact (h.lone b hl).2 e h1 h2
  callOut b _ e he hc x hx := by
    obtain ⟨h1, h2⟩ := mem_targets.mp he
    obtain ⟨⟨h3, h4⟩, -⟩ := mem_out.mp hx
    exact h.callOut e h1 hc x h3 (h4.trans h2.symm)

theorem Ok.built (h : p.Ok) : Built {} p.skip p.code p.info (fun _ => {}) p.sums p.bfunc p.plan where
  code := h.code
  sums := h.analysed
  light := rfl
  asserts := rfl
  func := h.func
  view := h.view
  left f hf hl := by
    rw [plan, if_pos]
    simp only [bfunc] at hl
    simp only [Bool.or_eq_true, List.contains_iff_mem] at hl ⊢
    rcases hl with hl | hl
    · exact .inl hl
    · refine .inr ?_
      split at hl
      · assumption
      · exact absurd rfl hl
  plans f hf hn hr := by
    have hl : ¬ ((p.noret.contains f || p.other.contains f) = true) := by
      simp only [bfunc] at hn hr
      intro hl
      rw [hn, Bool.false_or, List.contains_iff_mem] at hl
      rw [if_pos hl] at hr
      revert hr
      decide +kernel
    have hp := h.plans f hf
    cases hr : p.result f with
    | none => rw [hr] at hp; cases hp
    | some r =>
      refine ⟨[], fun _ => some (p.sums f, []), {}, r.2, rfl, ?_⟩
      have : p.plan f = r.1 := by rw [plan, if_neg hl, hr]; rfl
      rw [this]
      exact hr

/-- Calls only of functions with greater numbers. -/
theorem Ok.noRecursion (h : p.Ok)
    (hlt : ∀ g ∈ p.code.funcs, ∀ c ∈ (p.sums g).callees, g < c) :
    ∀ f ∈ p.code.funcs, NoRecursion p.sums f := by
  have hj := analyse_judged h.code h.analysed
  have hreach : ∀ {a b}, Reach p.sums a b → a ∈ p.code.funcs → b ∈ p.code.funcs ∧ a ≤ b := by
    intro a b hr
    induction hr with
    | refl => exact fun ha => ⟨ha, Nat.le_refl _⟩
    | step hc _ ih =>
      intro ha
      obtain ⟨h1, h2⟩ := ih (hj.known _ ha _ hc)
      exact ⟨h1, Nat.le_trans (Nat.le_of_lt (hlt _ ha _ hc)) h2⟩
  intro f hf g c hr hc hr'
  obtain ⟨hg, _⟩ := hreach hr hf
  have h1 := hlt g hg c hc
  have h2 := (hreach hr' (hj.known g hg c hc)).2
  exact absurd h1 (Nat.not_lt.mpr h2)

theorem no_stub (hst : p.stubs = []) (a : Nat) : p.code.linkage a = none := by
  simp [code, hst]

theorem tailsOk {f : Func}
    (h : ∀ e ∈ p.edges, e.src ∈ p.exitsOf f → e.interproc = true → e.type ≠ .call → e.type ≠ .ret →
      e.sink = false ∧ ∃ g ∈ p.code.funcs, calleeAt p.code e.trg = some g ∧
        ((p.sums g).writes = true → (p.sums f).writes = true)) (hst : p.stubs = [] := by rfl) :
    TailsOk p.code p.sums f where
  known b hb e he hu := by
    obtain ⟨h1, h2⟩ := mem_targets.mp he
    subst h2
    obtain ⟨hs, g, hg, hc, _⟩ := h e h1 hb hu.1.1 hu.1.2.1 hu.1.2.2
    exact hu.2.2 ⟨g, hg, hu.1, hs, no_stub hst _, (calleeAt_iff _ _ _).mp hc⟩
  covered b hb e he g _ hjt hw := by
    obtain ⟨h1, h2⟩ := mem_targets.mp he
    subst h2
    obtain ⟨_, g', _, hc, hcov⟩ := h e h1 hb hjt.1.1 hjt.1.2.1 hjt.1.2.2
    rw [(calleeAt_iff _ _ _).mpr hjt.2.2.2] at hc
    cases hc
    exact hcov hw

theorem leftOk {f : Func}
    (h1 : f ∈ p.other ∨ p.code.addr f ∈ p.skip → (p.sums f).writes = true → f ∈ p.noret)
    (h2 : f ∈ p.noret → ∀ e ∈ p.edges, e.src ∈ p.exitsOf f → e.interproc = true → e.type ≠ .call →
      e.type ≠ .ret → ∀ g ∈ p.code.funcs, calleeAt p.code e.trg = some g → g ∈ p.noret) :
    LeftOk p.skip p.code p.sums p.bfunc f where
  unsafe_stays hl hw := by
    refine List.contains_iff_mem.mpr (h1 (hl.imp (fun hr => ?_) id) hw)
    simp only [bfunc] at hr
    split at hr
    · assumption
    · exact absurd rfl hr
  jumps hn b hb e he g hg hj := by
    obtain ⟨k1, k2⟩ := mem_targets.mp he
    subst k2
    exact List.contains_iff_mem.mpr (h2 (List.contains_iff_mem.mp hn) e k1 hb hj.1.1 hj.1.2.1 hj.1.2.2 g hg
      ((calleeAt_iff _ _ _).mpr hj.2.2.2))

/-- Nothing is left out. -/
theorem allIn (h1 : p.noret = []) (h2 : p.other = []) (h3 : p.skip = []) :
    ∀ f ∈ p.code.funcs, LeftOk p.skip p.code p.sums p.bfunc f :=
  fun _ _ => leftOk (by simp [h2, h3]) (by simp [h1])

theorem mayReturn {f : Func} (h : f ∉ p.noret) : ¬ staysOf p.bfunc f :=
  fun hs => h (List.contains_iff_mem.mp hs)

/-- No function has a fast path with a call before a check. -/
theorem noCallAtCheck {f : Func}
    (h : ∀ r ∈ checkFastPath false (p.bfunc f).cfg, ∀ e ∈ p.edges, e.src ∈ r.2 → e.type ≠ .call) :
    NoCallAtCheck {} p.code (p.bfunc f) := by
  intro slow xs hc b hb e he
  obtain ⟨h1, h2⟩ := mem_targets.mp he
  subst h2
  exact h (slow, xs) hc e h1 hb

/-! ## Executions -/

/-- Does the walk exist, and where does it end? -/
def walkEnd (p : Small) : Blk → List Edge → Option Blk
  | b, [] => some b
  | b, e :: es => if e ∈ p.edges ∧ e.src = b ∧ Follow e then p.walkEnd e.trg es else none

theorem walkEnd_walk {b b' : Blk} {es : List Edge} (h : p.walkEnd b es = some b') :
    Walk p.code.targets Follow b es b' := by
  induction es generalizing b with
  | nil => cases h; exact .nil _
  | cons e es ih =>
    rw [walkEnd] at h
    split at h
    · rename_i hc
      exact .cons (mem_targets.mpr ⟨hc.1, hc.2.1⟩) hc.2.2 (ih h)
    · cases h

/-- The events of a walk. -/
def trace (p : Small) (f : Func) (es : List Edge) : List Ev := (p.plan f).trace (p.code.entry f) es

theorem starts {f : Func} {t : List Ev} {b' : Blk} (es : List Edge) (hf : f ∈ p.code.funcs)
    (hw : p.walkEnd (p.code.entry f) es = some b') (ht : t <+: p.trace f es) :
    StartsWith p.code p.plan f t := by
  obtain ⟨t', ht⟩ := ht
  exact ⟨hf, t', es, b', walkEnd_walk hw, ht⟩

theorem ends {f : Func} {t : List Ev} {b : Blk} (es : List Edge) (hf : f ∈ p.code.funcs)
    (hw : p.walkEnd (p.code.entry f) es = some b) (hx : b ∈ p.exitsOf f)
    (hr : isNonreturningCall (p.code.targets b) = false) (ht : t = p.trace f es) :
    EndsAt p.code p.plan f t b := ⟨hf, hx, hr, es, walkEnd_walk hw, ht⟩

/-- A skipped function has no checks. -/
theorem skipped_end {f : Func} {t t' : List Ev} {b : Blk} (hs : p.plan f = .skipped)
    (hst : StartsWith p.code p.plan f t) (ht : t = t' ++ [.block b]) : AtEnd p.code p.plan f t b := by
  refine ⟨hst, ⟨t', .inl ht⟩, ?_⟩
  rintro ⟨_, t'', es, b', _, h⟩
  rw [hs] at h
  have : Ev.check ∈ (visits (p.code.entry f) es).map Ev.block := by
    change _ = (visits (p.code.entry f) es).map Ev.block at h
    rw [← h]; simp
  simp at this

end Small

/-! ## A protected program -/

def retEdge (n : Nat) (b : Blk) : Edge :=
  { id := n, src := b, trg := 0, type := .ret, sink := true, interproc := true }

/-- `f0` returns at once or calls `f1`, which writes and jumps to `f2`, which writes too. -/
def goodProg : Small where
  blocks := [[0, 1, 2, 3], [4], [5]]
  exits := [[1, 3], [4], [5]]
  edges :=
    [{ id := 0, src := 0, trg := 1, type := .condTaken },
     { id := 1, src := 0, trg := 2, type := .condNotTaken },
     { id := 2, src := 2, trg := 4, type := .call, interproc := true },
     { id := 3, src := 2, trg := 3, type := .callFt },
     retEdge 4 1, retEdge 5 3,
     { id := 6, src := 4, trg := 5, type := .direct, interproc := true },
     retEdge 7 5]
  danger := [4, 5]

theorem goodProg_ok : goodProg.Ok where
  sums := by decide +kernel
  plans := by decide +kernel
  addr := by decide +kernel
  oneCall := by decide +kernel
  entry := by decide +kernel
  closed := by decide +kernel
  ret := by decide +kernel
  exits := by decide +kernel
  handler := by decide +kernel
  nodup := by decide +kernel
  after := by decide +kernel
  resolved := by decide +kernel
  exitIn := by decide +kernel
  nodupEdges := by decide +kernel
  lone := by decide +kernel
  callOut := by decide +kernel

theorem goodProg_calls : ∀ f ∈ goodProg.code.funcs, NoCallAtCheck {} goodProg.code (goodProg.bfunc f) := by
  have h : ∀ f ∈ goodProg.code.funcs, ∀ r ∈ checkFastPath false (goodProg.bfunc f).cfg,
      ∀ e ∈ goodProg.edges, e.src ∈ r.2 → e.type ≠ .call := by decide +kernel
  exact fun f hf => Small.noCallAtCheck (h f hf)

theorem goodProg_tails : ∀ f ∈ goodProg.code.funcs, TailsOk goodProg.code goodProg.sums f := by
  have h : ∀ f ∈ goodProg.code.funcs, ∀ e ∈ goodProg.edges, e.src ∈ goodProg.exitsOf f →
      e.interproc = true → e.type ≠ .call → e.type ≠ .ret →
      e.sink = false ∧ ∃ g ∈ goodProg.code.funcs, calleeAt goodProg.code e.trg = some g ∧
        ((goodProg.sums g).writes = true → (goodProg.sums f).writes = true) := by decide +kernel
  exact fun f hf => Small.tailsOk (h f hf)

/-- Example for `C45_protected_partial`: the program meets all the conditions. -/
example : Protected (semOf goodProg.code goodProg.info goodProg.plan (inRegOf {} goodProg.sums)
    (staysOf goodProg.bfunc)) 0 :=
  C45_protected_partial goodProg_ok.built goodProg_calls
    (goodProg_ok.built.covered (goodProg_ok.noRecursion (by decide +kernel))) goodProg_tails
    (Small.allIn rfl rfl rfl) 0

/-- Its first function is lowered, and its paths with the call are checked. -/
example : (match goodProg.plan 0 with | .lowered _ => true | _ => false) = true ∧
    goodProg.trace 0 [goodProg.edges[1], goodProg.edges[3]] =
      [.block 0, .push, .block 2, .block 3, .check] ∧
    goodProg.trace 0 [goodProg.edges[0]] = [.block 0, .block 1] := by decide +kernel

/-! ## What counts as a jump to unknown code -/

/-- A jump to a library stub is to unknown code exactly if the library function is not trusted. -/
theorem unknownJump_lib {co : CodeObj} {e : Edge} {n : List Char} (hj : TailJump e) (hs : e.sink = false)
    (hl : co.linkage (co.start e.trg) = some n) : UnknownJump co e ↔ ¬ TrustedName n := by
  constructor
  · intro h ht
    exact h.2.1 ⟨n, hs, hl, ht⟩
  · intro hn
    refine ⟨hj, ?_, ?_⟩
    · rintro ⟨n', _, hl', ht⟩
      rw [hl] at hl'
      cases hl'
      exact hn ht
    · rintro ⟨g, _, h⟩
      have := h.2.2.1
      rw [hl] at this
      cases this

/-- A jump to an unknown place is to unknown code, and so is one to a place at which no function starts. -/
theorem unknownJump_other {co : CodeObj} {e : Edge} (hj : TailJump e)
    (h : e.sink = true ∨ co.linkage (co.start e.trg) = none ∧ ∀ g ∈ co.funcs, ¬ StartsAt co g e.trg) :
    UnknownJump co e := by
  refine ⟨hj, ?_, ?_⟩
  · rintro ⟨n, hs, hl, _⟩
    rcases h with h | h
    · rw [h] at hs; cases hs
    · rw [h.1] at hl; cases hl
  · rintro ⟨g, hg, hg'⟩
    rcases h with h | h
    · have := hg'.2.1; rw [h] at this; cases this
    · exact h.2 g hg hg'.2.2.2

/-- A jump to the start of a function is not, unless a library stub is there too. -/
theorem unknownJump_func {co : CodeObj} {e : Edge} {g : Func} (hg : g ∈ co.funcs) (hs : e.sink = false)
    (hl : co.linkage (co.start e.trg) = none) (ha : StartsAt co g e.trg) : ¬ UnknownJump co e :=
  fun h => h.2.2 ⟨g, hg, h.1, hs, hl, ha⟩

/-! ## Small attacks -/

namespace Small
variable {p : Small}

/-- The program in action. -/
abbrev sem (p : Small) : ProgSem := semOf p.code p.info p.plan (inRegOf {} p.sums) (staysOf p.bfunc)

theorem direct {e : Edge} {g : Func} (hc : e.type = .call) (hs : e.sink = false)
    (h : calleeAt p.code e.trg = some g) (hst : p.stubs = [] := by rfl) : DirectCall p.code e g :=
  ⟨hc, hs, no_stub hst _, (calleeAt_iff _ _ _).mp h⟩

theorem jumps {e : Edge} {g : Func} (hi : e.interproc = true) (hc : e.type ≠ .call)
    (hr : e.type ≠ .ret) (hs : e.sink = false) (h : calleeAt p.code e.trg = some g)
    (hst : p.stubs = [] := by rfl) : JumpTo p.code e g :=
  ⟨⟨hi, hc, hr⟩, hs, no_stub hst _, (calleeAt_iff _ _ _).mp h⟩

/-- A direct call at the end of a block of a skipped function. -/
theorem calls_skipped {f g : Func} {t : List Ev} {b : Blk} (e : Edge) (hs : p.plan f = .skipped)
    (hst : StartsWith p.code p.plan f (t ++ [.block b])) (hg : g ∈ p.code.funcs)
    (he : e ∈ p.code.targets b) (hd : DirectCall p.code e g) : p.sem.calls f (t ++ [.block b]) g :=
  ⟨hg, .inl ⟨b, skipped_end hs hst rfl, e, he, .inl hd⟩⟩

/-- A dangerous instruction. -/
theorem danger_write {f : Func} {t : List Ev} {b : Blk} (hst : StartsWith p.code p.plan f (t ++ [.block b]))
    (hb : b ∈ p.danger) : p.sem.danger f (t ++ [.block b]) := by
  refine .inl ⟨hst, t, b, rfl, { addr := 4096 + 16 * b, writesMemory := true, outs := [.unknown] }, ?_, ?_⟩
  · simp [info, hb]
  · exact ⟨rfl, rfl, .unknown, by simp, .inl rfl⟩

theorem skipped_of {f : Func} (h : (match p.plan f with | .skipped => true | _ => false) = true) :
    p.plan f = .skipped := by
  cases hp : p.plan f <;> rw [hp] at h <;> first | rfl | cases h

end Small

/-! ## Recursion -/

/-- `f0` writes, then calls `f1` or returns; `f1` calls `f0`. -/
def recProg : Small where
  blocks := [[0, 1, 2], [3, 4]]
  exits := [[2], [4]]
  edges :=
    [{ id := 0, src := 0, trg := 1, type := .condTaken },
     { id := 1, src := 0, trg := 2, type := .condNotTaken },
     { id := 2, src := 1, trg := 3, type := .call, interproc := true },
     { id := 3, src := 1, trg := 2, type := .callFt },
     retEdge 4 2,
     { id := 5, src := 3, trg := 0, type := .call, interproc := true },
     { id := 6, src := 3, trg := 4, type := .callFt },
     retEdge 7 4]
  danger := [0]

theorem recProg_ok : recProg.Ok where
  sums := by decide +kernel
  plans := by decide +kernel
  addr := by decide +kernel
  oneCall := by decide +kernel
  entry := by decide +kernel
  closed := by decide +kernel
  ret := by decide +kernel
  exits := by decide +kernel
  handler := by decide +kernel
  nodup := by decide +kernel
  after := by decide +kernel
  resolved := by decide +kernel
  exitIn := by decide +kernel
  nodupEdges := by decide +kernel
  lone := by decide +kernel
  callOut := by decide +kernel

theorem recProg_calls : ∀ f ∈ recProg.code.funcs, NoCallAtCheck {} recProg.code (recProg.bfunc f) := by
  have h : ∀ f ∈ recProg.code.funcs, ∀ r ∈ checkFastPath false (recProg.bfunc f).cfg,
      ∀ e ∈ recProg.edges, e.src ∈ r.2 → e.type ≠ .call := by decide +kernel
  exact fun f hf => Small.noCallAtCheck (h f hf)

theorem recProg_tails : ∀ f ∈ recProg.code.funcs, TailsOk recProg.code recProg.sums f := by
  have h : ∀ f ∈ recProg.code.funcs, ∀ e ∈ recProg.edges, e.src ∈ recProg.exitsOf f →
      e.interproc = true → e.type ≠ .call → e.type ≠ .ret →
      e.sink = false ∧ ∃ g ∈ recProg.code.funcs, calleeAt recProg.code e.trg = some g ∧
        ((recProg.sums g).writes = true → (recProg.sums f).writes = true) := by decide +kernel
  exact fun f hf => Small.tailsOk (h f hf)

/-- `f1` calls `f0`, which overwrites the return address of `f1`. -/
theorem recProg_attack : PRun recProg.sem (.run [⟨1, [], 7, 7, none⟩] []) (.hijacked 666) := by
  have hs : recProg.plan 1 = .skipped := Small.skipped_of (by decide +kernel)
  have hreg : ¬ recProg.sem.inReg 0 := by
    change ¬ (useRegFrame {} (some (recProg.sums 0)) = true); decide +kernel
  have e1 : recProg.sem.trace 1 ([] ++ [.block 3]) :=
    Small.starts (b' := 3) [] (by decide) (by decide) (by decide +kernel)
  have e2 : recProg.sem.trace 1 ([.block 3] ++ [.block 4]) :=
    Small.starts (b' := 4) [recProg.edges[6]] (by decide) (by decide) (by decide +kernel)
  have d1 : recProg.sem.trace 0 ([] ++ [.push]) :=
    Small.starts (b' := 0) [] (by decide) (by decide) (by decide +kernel)
  have d2 : recProg.sem.trace 0 ([.push] ++ [.block 0]) :=
    Small.starts (b' := 0) [] (by decide) (by decide) (by decide +kernel)
  have d3 : recProg.sem.trace 0 ([.push, .block 0] ++ [.block 2]) :=
    Small.starts (b' := 2) [recProg.edges[1]] (by decide) (by decide) (by decide +kernel)
  have d4 : recProg.sem.trace 0 ([.push, .block 0, .block 2] ++ [.check]) :=
    Small.starts (b' := 2) [recProg.edges[1]] (by decide) (by decide) (by decide +kernel)
  have r0 : PRun recProg.sem (.run [⟨1, [], 7, 7, none⟩] []) _ := .refl _
  have r1 := r0.step (.block (a := ⟨1, [], 7, 7, none⟩) e1)
  have r2 := r1.step (.call (a := ⟨1, [.block 3], 7, 7, none⟩) (g := 0) 8
    (Small.calls_skipped (t := []) recProg.edges[5] hs e1 (by decide) (by decide)
      (Small.direct (by decide) (by decide) (by decide +kernel))))
  have r3 := r2.step (.push (a := ⟨0, [], 8, 8, none⟩) d1 hreg)
  have r4 := r3.step (.block (a := ⟨0, [.push], 8, 8, none⟩) d2)
  have r5 := r4.step (.attack (a := ⟨0, [.push, .block 0], 8, 8, none⟩)
    (Small.danger_write (t := [.push]) d2 (by decide)) (.cons 8 (.cons 666 .nil)))
  have r6 := r5.step (.block (a := ⟨0, [.push, .block 0], 8, 8, none⟩) d3)
  have r7 := r6.step (.check (a := ⟨0, [.push, .block 0, .block 2], 8, 8, none⟩) (n := 0) d4 hreg
    (by decide) rfl)
  have r8 := r7.step (.ret (a := ⟨0, [.push, .block 0, .block 2, .check], 8, 8, none⟩)
    ⟨2, Small.ends [recProg.edges[1]] (by decide) (by decide) (by decide) (by decide) (by decide +kernel)⟩
    rfl)
  have r9 := r8.step (.block (a := ⟨1, [.block 3], 7, 666, none⟩) e2)
  exact r9.step (.hijack (a := ⟨1, [.block 3, .block 4], 7, 666, none⟩)
    ⟨4, Small.ends [recProg.edges[6]] (by decide) (by decide) (by decide) (by decide) (by decide +kernel)⟩
    (Small.mayReturn (by decide))
    (by decide))

/-! ## Tail jumps -/

/-- `f0` calls `f1`, which jumps to `f2`, which writes. -/
def tailProg : Small where
  blocks := [[0, 1], [2], [3]]
  exits := [[1], [2], [3]]
  edges :=
    [{ id := 0, src := 0, trg := 2, type := .call, interproc := true },
     { id := 1, src := 0, trg := 1, type := .callFt },
     retEdge 2 1,
     { id := 3, src := 2, trg := 3, type := .direct, interproc := true },
     retEdge 4 3]
  danger := [3]

theorem tailProg_ok : tailProg.Ok where
  sums := by decide +kernel
  plans := by decide +kernel
  addr := by decide +kernel
  oneCall := by decide +kernel
  entry := by decide +kernel
  closed := by decide +kernel
  ret := by decide +kernel
  exits := by decide +kernel
  handler := by decide +kernel
  nodup := by decide +kernel
  after := by decide +kernel
  resolved := by decide +kernel
  exitIn := by decide +kernel
  nodupEdges := by decide +kernel
  lone := by decide +kernel
  callOut := by decide +kernel

theorem tailProg_calls : ∀ f ∈ tailProg.code.funcs, NoCallAtCheck {} tailProg.code (tailProg.bfunc f) := by
  have h : ∀ f ∈ tailProg.code.funcs, ∀ r ∈ checkFastPath false (tailProg.bfunc f).cfg,
      ∀ e ∈ tailProg.edges, e.src ∈ r.2 → e.type ≠ .call := by decide +kernel
  exact fun f hf => Small.noCallAtCheck (h f hf)

/-- `f2`, having come from `f0` through `f1`, overwrites the return address of `f0`. -/
theorem tailProg_attack : PRun tailProg.sem (.run [⟨0, [], 7, 7, none⟩] []) (.hijacked 666) := by
  have hs : tailProg.plan 0 = .skipped := Small.skipped_of (by decide +kernel)
  have hreg : ¬ tailProg.sem.inReg 2 := by
    change ¬ (useRegFrame {} (some (tailProg.sums 2)) = true); decide +kernel
  have e1 : tailProg.sem.trace 0 ([] ++ [.block 0]) :=
    Small.starts (b' := 0) [] (by decide) (by decide) (by decide +kernel)
  have e2 : tailProg.sem.trace 0 ([.block 0] ++ [.block 1]) :=
    Small.starts (b' := 1) [tailProg.edges[1]] (by decide) (by decide) (by decide +kernel)
  have c1 : tailProg.sem.trace 1 ([] ++ [.block 2]) :=
    Small.starts (b' := 2) [] (by decide) (by decide) (by decide +kernel)
  have c2 : EndsAt tailProg.code tailProg.plan 1 [.block 2] 2 :=
    Small.ends [] (by decide) (by decide) (by decide) (by decide) (by decide +kernel)
  have d1 : tailProg.sem.trace 2 ([] ++ [.push]) :=
    Small.starts (b' := 3) [] (by decide) (by decide) (by decide +kernel)
  have d2 : tailProg.sem.trace 2 ([.push] ++ [.block 3]) :=
    Small.starts (b' := 3) [] (by decide) (by decide) (by decide +kernel)
  have d3 : tailProg.sem.trace 2 ([.push, .block 3] ++ [.check]) :=
    Small.starts (b' := 3) [] (by decide) (by decide) (by decide +kernel)
  have r0 : PRun tailProg.sem (.run [⟨0, [], 7, 7, none⟩] []) _ := .refl _
  have r1 := r0.step (.block (a := ⟨0, [], 7, 7, none⟩) e1)
  have r2 := r1.step (.call (a := ⟨0, [.block 0], 7, 7, none⟩) (g := 1) 8
    (Small.calls_skipped (t := []) tailProg.edges[0] hs e1 (by decide) (by decide)
      (Small.direct (by decide) (by decide) (by decide +kernel))))
  have r3 := r2.step (.block (a := ⟨1, [], 8, 8, none⟩) c1)
  have r4 := r3.step (.tail (a := ⟨1, [.block 2], 8, 8, none⟩) (g := 2) ⟨2, c2⟩
    ⟨by decide, 2, c2, tailProg.edges[3], by decide,
      Small.jumps (by decide) (by decide) (by decide) (by decide) (by decide +kernel)⟩)
  have r5 := r4.step (.push (a := ⟨2, [], 8, 8, none⟩) d1 hreg)
  have r6 := r5.step (.block (a := ⟨2, [.push], 8, 8, none⟩) d2)
  have r7 := r6.step (.attack (a := ⟨2, [.push, .block 3], 8, 8, none⟩)
    (Small.danger_write (t := [.push]) d2 (by decide)) (.cons 8 (.cons 666 .nil)))
  have r8 := r7.step (.check (a := ⟨2, [.push, .block 3], 8, 8, none⟩) (n := 0) d3 hreg
    (by decide) rfl)
  have r9 := r8.step (.ret (a := ⟨2, [.push, .block 3, .check], 8, 8, none⟩)
    ⟨3, Small.ends [] (by decide) (by decide) (by decide) (by decide) (by decide +kernel)⟩ rfl)
  have r10 := r9.step (.block (a := ⟨0, [.block 0], 7, 666, none⟩) e2)
  exact r10.step (.hijack (a := ⟨0, [.block 0, .block 1], 7, 666, none⟩)
    ⟨1, Small.ends [tailProg.edges[1]] (by decide) (by decide) (by decide) (by decide) (by decide +kernel)⟩
    (Small.mayReturn (by decide))
    (by decide))

/-! ## A call before the check -/

/-- `f0` returns at once, or calls something unknown and then returns. -/
def slowProg : Small where
  blocks := [[0, 1, 2]]
  exits := [[2]]
  edges :=
    [{ id := 0, src := 0, trg := 2, type := .condTaken },
     { id := 1, src := 0, trg := 1, type := .condNotTaken },
     { id := 2, src := 1, trg := 0, type := .call, sink := true, interproc := true },
     { id := 3, src := 1, trg := 2, type := .callFt },
     retEdge 4 2]
  danger := []
  lone := [2]
  height := none

theorem slowProg_ok : slowProg.Ok where
  sums := by decide +kernel
  plans := by decide +kernel
  addr := by decide +kernel
  oneCall := by decide +kernel
  entry := by decide +kernel
  closed := by decide +kernel
  ret := by decide +kernel
  exits := by decide +kernel
  handler := by decide +kernel
  nodup := by decide +kernel
  after := by decide +kernel
  resolved := by decide +kernel
  exitIn := by decide +kernel
  nodupEdges := by decide +kernel
  lone := by decide +kernel
  callOut := by decide +kernel

theorem slowProg_tails : ∀ f ∈ slowProg.code.funcs, TailsOk slowProg.code slowProg.sums f := by
  have h : ∀ f ∈ slowProg.code.funcs, ∀ e ∈ slowProg.edges, e.src ∈ slowProg.exitsOf f →
      e.interproc = true → e.type ≠ .call → e.type ≠ .ret →
      e.sink = false ∧ ∃ g ∈ slowProg.code.funcs, calleeAt slowProg.code e.trg = some g ∧
        ((slowProg.sums g).writes = true → (slowProg.sums f).writes = true) := by decide +kernel
  exact fun f hf => Small.tailsOk (h f hf)

namespace Small
variable {p : Small}

theorem fast_of {f : Func} {slow : Blk} {xs : List Blk}
    (h : (match p.plan f with
      | .fastPath q c => decide (q.1.blk = slow ∧ (c.map fun x => x.1.blk) = xs)
      | _ => false) = true) (b : Blk) (es : List Edge) :
    (p.plan f).trace b es = fpTrace slow xs b es := by
  cases hp : p.plan f with
  | fastPath q c =>
    rw [hp] at h
    obtain ⟨h1, h2⟩ := of_decide_eq_true h
    rw [Plan.trace, h1, h2]
  | _ => rw [hp] at h; cases h

/-- The fast path has no second check. -/
theorem fast_once (hok : p.Ok) {f : Func} {slow : Blk} {xs : List Blk} {t : List Ev} (hf : f ∈ p.code.funcs)
    (hplain : ∀ b ∈ (p.bfunc f).cfg.exits, (p.bfunc f).cfg.out b = [])
    (hc : checkFastPath false (p.bfunc f).cfg = some (slow, xs))
    (hpl : ∀ b es, (p.plan f).trace b es = fpTrace slow xs b es) (ht : .check ∈ t) :
    ¬ StartsWith p.code p.plan f (t ++ [.check]) := by
  rintro ⟨_, t', es, b', hw, h⟩
  obtain ⟨_, fe, fx, hff⟩ := fast_facts hc
  have hfe : fe = p.code.entry f := by
    have := hff.entries
    simp only [bfunc, List.cons.injEq, and_true] at this
    exact this.symm
  have hv := hok.view f hf
  have hwf := (hok.func f hf).wf
  have hw' := walk_cfg hwf.closed hv.out hw hwf.entry
  rw [← hfe] at hw'
  have hpre := fast_pre (bad := fun _ => False) (noCall := fun _ => True) hv.ok hplain hff
    (fun h => h) (fun h => h) (fun _ _ => trivial) hw'
  rw [hpl, ← hfe] at h
  rw [← h, List.append_assoc] at hpre
  exact (pre_check hpre).2 ht

end Small

theorem slowProg_check : AtEnd slowProg.code slowProg.plan 0 [.block 0, .push, .block 1, .check] 1 := by
  refine ⟨Small.starts (b' := 1) [slowProg.edges[1]] (by decide) (by decide) (by decide +kernel),
    ⟨[.block 0, .push], .inr rfl⟩, ?_⟩
  exact Small.fast_once slowProg_ok (slow := 1) (xs := [1]) (by decide) (by decide) (by decide +kernel)
    (Small.fast_of (by decide +kernel)) (by decide)

theorem slowProg_danger : slowProg.sem.danger 0 [.block 0, .push, .block 1, .check] := by
  refine .inr (.inl ⟨1, slowProg_check, slowProg.edges[2], by decide, rfl, ?_, ?_⟩)
  · rintro ⟨n, h, _⟩
    exact absurd h.2.1 (by decide)
  · rintro ⟨g, _, h⟩
    exact absurd h.2.1 (by decide)

/-- Whatever `f0` calls overwrites the return address of `f0` after the check. -/
theorem slowProg_attack : PRun slowProg.sem (.run [⟨0, [], 7, 7, none⟩] []) (.hijacked 666) := by
  have hreg : ¬ slowProg.sem.inReg 0 := by
    change ¬ (useRegFrame {} (some (slowProg.sums 0)) = true); decide +kernel
  have e1 : slowProg.sem.trace 0 ([] ++ [.block 0]) :=
    Small.starts (b' := 0) [] (by decide) (by decide) (by decide +kernel)
  have e2 : slowProg.sem.trace 0 ([.block 0] ++ [.push]) :=
    Small.starts (b' := 1) [slowProg.edges[1]] (by decide) (by decide) (by decide +kernel)
  have e3 : slowProg.sem.trace 0 ([.block 0, .push] ++ [.block 1]) :=
    Small.starts (b' := 1) [slowProg.edges[1]] (by decide) (by decide) (by decide +kernel)
  have e4 : slowProg.sem.trace 0 ([.block 0, .push, .block 1] ++ [.check]) :=
    Small.starts (b' := 1) [slowProg.edges[1]] (by decide) (by decide) (by decide +kernel)
  have e5 : slowProg.sem.trace 0 ([.block 0, .push, .block 1, .check] ++ [.block 2]) :=
    Small.starts (b' := 2) [slowProg.edges[1], slowProg.edges[3]] (by decide) (by decide) (by decide +kernel)
  have r0 : PRun slowProg.sem (.run [⟨0, [], 7, 7, none⟩] []) _ := .refl _
  have r1 := r0.step (.block (a := ⟨0, [], 7, 7, none⟩) e1)
  have r2 := r1.step (.push (a := ⟨0, [.block 0], 7, 7, none⟩) e2 hreg)
  have r3 := r2.step (.block (a := ⟨0, [.block 0, .push], 7, 7, none⟩) e3)
  have r4 := r3.step (.check (a := ⟨0, [.block 0, .push, .block 1], 7, 7, none⟩) (n := 0) e4 hreg
    (by decide) rfl)
  have r5 := r4.step (.attack (a := ⟨0, [.block 0, .push, .block 1, .check], 7, 7, none⟩)
    slowProg_danger (.cons 666 .nil))
  have r6 := r5.step (.block (a := ⟨0, [.block 0, .push, .block 1, .check], 7, 666, none⟩) e5)
  exact r6.step (.hijack (a := ⟨0, [.block 0, .push, .block 1, .check, .block 2], 7, 666, none⟩)
    ⟨2, Small.ends [slowProg.edges[1], slowProg.edges[3]] (by decide) (by decide) (by decide)
      (by decide) (by decide +kernel)⟩ (Small.mayReturn (by decide)) (by decide))

/-! ## Functions which are left out -/

/-- `f0` writes and may call itself; `f1` writes, calls `f0` and does not return; `f2` is in another
section, `f3` on the skip list, and both are harmless; `f4` calls `f1`, `f2` and `f3`. -/
def stayProg : Small where
  blocks := [[0, 1, 2], [3, 4], [5], [6], [7, 8, 9, 10]]
  exits := [[2], [4], [5], [6], [9, 10]]
  edges :=
    [{ id := 0, src := 0, trg := 1, type := .condTaken },
     { id := 1, src := 0, trg := 2, type := .condNotTaken },
     { id := 2, src := 1, trg := 0, type := .call, interproc := true },
     { id := 3, src := 1, trg := 2, type := .callFt },
     retEdge 4 2,
     { id := 5, src := 3, trg := 0, type := .call, interproc := true },
     { id := 6, src := 3, trg := 4, type := .callFt },
     { id := 7, src := 4, trg := 4, type := .call, sink := true, interproc := true },
     retEdge 8 5, retEdge 9 6,
     { id := 10, src := 7, trg := 5, type := .call, interproc := true },
     { id := 11, src := 7, trg := 8, type := .callFt },
     { id := 12, src := 8, trg := 9, type := .condTaken },
     { id := 13, src := 8, trg := 10, type := .condNotTaken },
     { id := 14, src := 9, trg := 3, type := .call, interproc := true },
     retEdge 15 10]
  danger := [0, 3]
  noret := [1]
  other := [2]
  skip := [4096 + 16 * 6]

theorem stayProg_ok : stayProg.Ok where
  sums := by decide +kernel
  plans := by decide +kernel
  addr := by decide +kernel
  oneCall := by decide +kernel
  entry := by decide +kernel
  closed := by decide +kernel
  ret := by decide +kernel
  exits := by decide +kernel
  handler := by decide +kernel
  nodup := by decide +kernel
  after := by decide +kernel
  resolved := by decide +kernel
  exitIn := by decide +kernel
  nodupEdges := by decide +kernel
  lone := by decide +kernel
  callOut := by decide +kernel

theorem stayProg_calls : ∀ f ∈ stayProg.code.funcs, NoCallAtCheck {} stayProg.code (stayProg.bfunc f) := by
  have h : ∀ f ∈ stayProg.code.funcs, ∀ r ∈ checkFastPath false (stayProg.bfunc f).cfg,
      ∀ e ∈ stayProg.edges, e.src ∈ r.2 → e.type ≠ .call := by decide +kernel
  exact fun f hf => Small.noCallAtCheck (h f hf)

theorem stayProg_tails : ∀ f ∈ stayProg.code.funcs, TailsOk stayProg.code stayProg.sums f := by
  have h : ∀ f ∈ stayProg.code.funcs, ∀ e ∈ stayProg.edges, e.src ∈ stayProg.exitsOf f →
      e.interproc = true → e.type ≠ .call → e.type ≠ .ret →
      e.sink = false ∧ ∃ g ∈ stayProg.code.funcs, calleeAt stayProg.code e.trg = some g ∧
        ((stayProg.sums g).writes = true → (stayProg.sums f).writes = true) := by decide +kernel
  exact fun f hf => Small.tailsOk (h f hf)

theorem stayProg_covered : ∀ f ∈ stayProg.code.funcs, CallsCovered stayProg.sums f := by
  have h : ∀ f ∈ stayProg.code.funcs, ∀ g ∈ (stayProg.sums f).callees, (stayProg.sums g).writes = true →
      (stayProg.sums f).writes = true := by decide +kernel
  exact h

theorem stayProg_left : ∀ f ∈ stayProg.code.funcs,
    LeftOk stayProg.skip stayProg.code stayProg.sums stayProg.bfunc f := by
  have h1 : ∀ f ∈ stayProg.code.funcs, f ∈ stayProg.other ∨ stayProg.code.addr f ∈ stayProg.skip →
      (stayProg.sums f).writes = true → f ∈ stayProg.noret := by decide +kernel
  have h2 : ∀ f ∈ stayProg.code.funcs, f ∈ stayProg.noret → ∀ e ∈ stayProg.edges,
      e.src ∈ stayProg.exitsOf f → e.interproc = true → e.type ≠ .call → e.type ≠ .ret →
      ∀ g ∈ stayProg.code.funcs, calleeAt stayProg.code e.trg = some g → g ∈ stayProg.noret := by
    decide +kernel
  exact fun f hf => Small.leftOk (h1 f hf) (h2 f hf)

/-- Example for `C45_protected_partial` with a recursive function, one which does not return, one of
another section, and one of the skip list. -/
example : Protected (semOf stayProg.code stayProg.info stayProg.plan (inRegOf {} stayProg.sums)
    (staysOf stayProg.bfunc)) 4 :=
  C45_protected_partial stayProg_ok.built stayProg_calls stayProg_covered stayProg_tails stayProg_left 4

/-- The functions left out have no pushes, the others have, and the first is recursive. -/
example : ([0, 1, 2, 3, 4].map fun f => decide (Ev.push ∈ stayProg.trace f [stayProg.edges[12]])) =
      [true, false, false, false, true] ∧
    (stayProg.sums 1).writes = true ∧ (0 : Func) ∈ (stayProg.sums 0).callees := by decide +kernel

/-- `f0`, which is left out, writes and returns. -/
def outProg : Small where
  blocks := [[0]]
  exits := [[0]]
  edges := [retEdge 0 0]
  danger := [0]
  other := [0]

/-- The same with the skip list. -/
def skipProg : Small := { outProg with other := [], skip := [4096] }

theorem outProg_ok : outProg.Ok where
  sums := by decide +kernel
  plans := by decide +kernel
  addr := by decide +kernel
  oneCall := by decide +kernel
  entry := by decide +kernel
  closed := by decide +kernel
  ret := by decide +kernel
  exits := by decide +kernel
  handler := by decide +kernel
  nodup := by decide +kernel
  after := by decide +kernel
  resolved := by decide +kernel
  exitIn := by decide +kernel
  nodupEdges := by decide +kernel
  lone := by decide +kernel
  callOut := by decide +kernel

theorem skipProg_ok : skipProg.Ok where
  sums := by decide +kernel
  plans := by decide +kernel
  addr := by decide +kernel
  oneCall := by decide +kernel
  entry := by decide +kernel
  closed := by decide +kernel
  ret := by decide +kernel
  exits := by decide +kernel
  handler := by decide +kernel
  nodup := by decide +kernel
  after := by decide +kernel
  resolved := by decide +kernel
  exitIn := by decide +kernel
  nodupEdges := by decide +kernel
  lone := by decide +kernel
  callOut := by decide +kernel

namespace Small
variable {p : Small}

theorem calls_of (h : ∀ f ∈ p.code.funcs, ∀ r ∈ checkFastPath false (p.bfunc f).cfg,
    ∀ e ∈ p.edges, e.src ∈ r.2 → e.type ≠ .call) :
    ∀ f ∈ p.code.funcs, NoCallAtCheck {} p.code (p.bfunc f) :=
  fun f hf => noCallAtCheck (h f hf)

theorem tails_of (h : ∀ f ∈ p.code.funcs, ∀ e ∈ p.edges, e.src ∈ p.exitsOf f →
      e.interproc = true → e.type ≠ .call → e.type ≠ .ret →
      e.sink = false ∧ ∃ g ∈ p.code.funcs, calleeAt p.code e.trg = some g ∧
        ((p.sums g).writes = true → (p.sums f).writes = true)) (hst : p.stubs = [] := by rfl) :
    ∀ f ∈ p.code.funcs, TailsOk p.code p.sums f :=
  fun f hf => tailsOk (h f hf) hst

/-- A function of one block without pushes and checks overwrites its own return address. -/
theorem alone_attack (hb : p.blocks = [[0]]) (hx : p.exits = [[0]]) (hd : p.danger = [0])
    (hn : p.noret = []) (hs : p.plan 0 = .skipped)
    (hr : isNonreturningCall (p.code.targets 0) = false) :
    PRun p.sem (.run [⟨0, [], 7, 7, none⟩] []) (.hijacked 666) := by
  have hf : (0 : Func) ∈ p.code.funcs := by simp [code, hb]
  have he : p.code.entry 0 = 0 := by simp [code, blocksOf, hb]
  have ht : p.trace 0 [] = [.block 0] := by rw [trace, hs, he]; rfl
  have e1 : p.sem.trace 0 ([] ++ [.block 0]) :=
    starts (b' := 0) [] hf (by rw [he]; rfl) (by rw [ht]; exact List.prefix_refl _)
  have r0 : PRun p.sem (.run [⟨0, [], 7, 7, none⟩] []) _ := .refl _
  have r1 := r0.step (.block (a := ⟨0, [], 7, 7, none⟩) e1)
  have r2 := r1.step (.attack (a := ⟨0, [.block 0], 7, 7, none⟩)
    (danger_write (t := []) e1 (by simp [hd])) (.cons 666 .nil))
  exact r2.step (.hijack (a := ⟨0, [.block 0], 7, 666, none⟩)
    ⟨0, ends [] hf (by rw [he]; rfl) (by simp [exitsOf, hx]) hr ht.symm⟩
    (mayReturn (by simp [hn])) (by decide))

end Small

/-! ## C45 is false in general -/

/-- **C45 fails for functions of other sections than `.text`** which write unsafely: no conditions but
that of functions left out are violated. -/
theorem C45_refuted_section : ∃ co info R T bf plan f,
    Built {} [] co info R T bf plan ∧ (∀ f ∈ co.funcs, NoCallAtCheck {} co (bf f)) ∧
    (∀ f ∈ co.funcs, NoRecursion T f) ∧ (∀ f ∈ co.funcs, TailsOk co T f) ∧ f ∈ co.funcs ∧
    (∀ f, (bf f).noReturn = false) ∧ ¬ Protected (semOf co info plan (inRegOf {} T) (staysOf bf)) f :=
  ⟨_, _, _, _, _, _, 0, outProg_ok.built, Small.calls_of (by decide +kernel),
    outProg_ok.noRecursion (by decide +kernel), Small.tails_of (by decide +kernel), by decide,
    fun _ => rfl, fun h => h.unchecked _ _ (Small.alone_attack rfl rfl rfl rfl
      (Small.skipped_of (by decide +kernel)) (by decide))⟩

/-- **C45 fails for functions of the skip list** which write unsafely: likewise. -/
theorem C45_refuted_skip : ∃ skip co info R T bf plan f,
    Built {} skip co info R T bf plan ∧ (∀ f ∈ co.funcs, NoCallAtCheck {} co (bf f)) ∧
    (∀ f ∈ co.funcs, NoRecursion T f) ∧ (∀ f ∈ co.funcs, TailsOk co T f) ∧ f ∈ co.funcs ∧
    (∀ f, (bf f).noReturn = false ∧ (bf f).region = ".text") ∧
    ¬ Protected (semOf co info plan (inRegOf {} T) (staysOf bf)) f :=
  ⟨_, _, _, _, _, _, _, 0, skipProg_ok.built, Small.calls_of (by decide +kernel),
    skipProg_ok.noRecursion (by decide +kernel), Small.tails_of (by decide +kernel), by decide,
    fun _ => ⟨rfl, rfl⟩, fun h => h.unchecked _ _ (Small.alone_attack rfl rfl rfl rfl
      (Small.skipped_of (by decide +kernel)) (by decide))⟩

/-- **C45 fails for recursive programs**: the other conditions of `C45_protected_partial` hold,
yet a return goes unchecked to an address of the attacker's choice. -/
theorem C45_refuted_recursion : ∃ co info R T bf plan f,
    Built {} [] co info R T bf plan ∧ (∀ f ∈ co.funcs, NoCallAtCheck {} co (bf f)) ∧
    (∀ f ∈ co.funcs, LeftOk [] co T bf f) ∧
    (∀ f ∈ co.funcs, TailsOk co T f) ∧ f ∈ co.funcs ∧
    ¬ Protected (semOf co info plan (inRegOf {} T) (staysOf bf)) f :=
  ⟨_, _, _, _, _, _, 1, recProg_ok.built, recProg_calls, Small.allIn rfl rfl rfl, recProg_tails, by decide,
    fun h => h.unchecked _ _ recProg_attack⟩

/-- **C45 fails for programs with tail jumps**: likewise. -/
theorem C45_refuted_tail : ∃ co info R T bf plan f,
    Built {} [] co info R T bf plan ∧ (∀ f ∈ co.funcs, NoCallAtCheck {} co (bf f)) ∧
    (∀ f ∈ co.funcs, LeftOk [] co T bf f) ∧
    (∀ f ∈ co.funcs, NoRecursion T f) ∧ f ∈ co.funcs ∧
    ¬ Protected (semOf co info plan (inRegOf {} T) (staysOf bf)) f :=
  ⟨_, _, _, _, _, _, 0, tailProg_ok.built, tailProg_calls, Small.allIn rfl rfl rfl,
    tailProg_ok.noRecursion (by decide +kernel), by decide,
    fun h => h.unchecked _ _ tailProg_attack⟩

/-- **C45 fails for programs with a call before a check of the fast path**: likewise. -/
theorem C45_refuted_fastPath : ∃ co info R T bf plan f,
    Built {} [] co info R T bf plan ∧ (∀ f ∈ co.funcs, NoRecursion T f) ∧
    (∀ f ∈ co.funcs, LeftOk [] co T bf f) ∧ (∀ f ∈ co.funcs, TailsOk co T f) ∧ f ∈ co.funcs ∧
    ¬ Protected (semOf co info plan (inRegOf {} T) (staysOf bf)) f :=
  ⟨_, _, _, _, _, _, 0, slowProg_ok.built, slowProg_ok.noRecursion (by decide +kernel),
    Small.allIn rfl rfl rfl, slowProg_tails, by decide, fun h => h.unchecked _ _ slowProg_attack⟩

/-! ## C58 -/

/-- Control may pass from `f` to the start of `g`. -/
def PassesTo (co : CodeObj) (f g : Func) : Prop :=
  ∃ b ∈ co.blocks f, ∃ e ∈ co.targets b, DirectCall co e g ∨ JumpTo co e g

/-- **C58, what holds.** A function judged safe calls only functions judged safe, if there is no
recursion.  Missing: jumps (see `C58_refuted`) and recursion (see `C18_refuted`). -/
theorem C58_safe_calls_safe_partial {co : CodeObj} {info : StackInfo} {R : Func → RegFacts} {T : Sums}
    (hok : CodeOk co) (ha : analyse co info R = some T) {f g : Func} (hf : f ∈ co.funcs)
    (hnr : NoRecursion T f) {b : Blk} (hb : b ∈ co.blocks f) {e : Edge} (he : e ∈ co.targets b)
    (hd : DirectCall co e g) (hs : (T f).safe = true) : (T g).safe = true := by
  have hj := analyse_judged hok ha
  have hc : g ∈ (T f).callees := ((hj.calls f hf).callees g).mpr ⟨b, e, ⟨hb, he⟩, hd⟩
  have hw := hj.callee f hf hnr g hc
  rw [hj.safe] at hs ⊢
  cases hg : (T g).writes with
  | false => rfl
  | true => rw [hw hg] at hs; cases hs

/-- Example: there is a safe caller. -/
example : (tailProg.sums 0).safe = true ∧ (tailProg.sums 1).safe = true := by decide +kernel

/-- **C58 fails for jumps**: control passes from a function judged safe, which is not recursive,
to one which is not. -/
theorem C58_refuted : ∃ co info R T f g, CodeOk co ∧ analyse co info R = some T ∧ f ∈ co.funcs ∧
    g ∈ co.funcs ∧ NoRecursion T f ∧ PassesTo co f g ∧ (T f).safe = true ∧ (T g).safe = false :=
  ⟨tailProg.code, tailProg.info, _, tailProg.sums, 1, 2, tailProg_ok.code, tailProg_ok.analysed,
    by decide, by decide, tailProg_ok.noRecursion (by decide +kernel) 1 (by decide),
    ⟨2, by decide, tailProg.edges[3], by decide,
      .inr (Small.jumps (by decide) (by decide) (by decide) (by decide) (by decide +kernel))⟩,
    by decide +kernel, by decide +kernel⟩

/-! ## C59 -/

/-- **C59, what holds.** A function which may return does nothing dangerous, and calls nothing that was judged
unsafe, before its push or after its check, under the conditions of `C45_protected_partial`. -/
theorem C59_danger_between_partial {fl : InstrFlags} {skip : List Nat} {co : CodeObj} {info : StackInfo}
    {R : Func → RegFacts} {T : Sums} {bf : Func → BFunc} {plan : Func → Plan}
    (hb : Built fl skip co info R T bf plan)
    (hcall : ∀ f ∈ co.funcs, NoCallAtCheck fl co (bf f)) (hnr : ∀ f ∈ co.funcs, CallsCovered T f)
    (htail : ∀ f ∈ co.funcs, TailsOk co T f) (hleft : ∀ f ∈ co.funcs, LeftOk skip co T bf f) (f : Func)
    (hret : (bf f).noReturn = false) (t : List Ev) :
    ((semOf co info plan (inRegOf fl T) (staysOf bf)).danger f t → .push ∈ t ∧ .check ∉ t) ∧
    (∀ g, (semOf co info plan (inRegOf fl T) (staysOf bf)).calls f t g → (T g).safe = false →
      .push ∈ t ∧ .check ∉ t) := by
  have hs := built_sound hb hcall hnr htail hleft
  have hst' : ¬ staysOf bf f := by unfold staysOf; rw [hret]; exact Bool.false_ne_true
  have hj := analyse_judged hb.code hb.sums
  have hend : ∀ {b}, EndsAt co plan f t b → StartsWith co plan f t := by
    rintro b ⟨h1, _, _, es, hw, ht⟩
    exact ⟨h1, [], es, b, hw, by simpa using ht⟩
  constructor
  · intro hd
    have hst : StartsWith co plan f t := by
      rcases hd with ⟨h, _⟩ | ⟨_, h, _⟩ | ⟨_, h, _⟩
      · exact h
      · exact h.1
      · exact hend h
    exact (hs.danger f t (.inr hst) hd).2 hst'
  · intro g hc hg
    have hst : StartsWith co plan f t := by
      rcases hc.2 with ⟨_, h, _⟩ | ⟨_, h, _⟩
      · exact h.1
      · exact hend h
    rw [hj.safe] at hg
    exact (hs.calls f t g (.inr hst) hc (by simpa using hg)).2 hst'

/-- Example: the call of `f1` in `goodProg`. -/
example : Small.trace goodProg 0 [goodProg.edges[1]] = [.block 0, .push, .block 2] := by decide +kernel

/-- **C59 fails on the fast path**: an unknown call follows the check. -/
theorem C59_refuted : ∃ co info R T bf plan f t,
    Built {} [] co info R T bf plan ∧ (∀ f ∈ co.funcs, NoRecursion T f) ∧
    (∀ f ∈ co.funcs, LeftOk [] co T bf f) ∧ (∀ f ∈ co.funcs, TailsOk co T f) ∧
    (semOf co info plan (inRegOf {} T) (staysOf bf)).danger f t ∧ .check ∈ t :=
  ⟨_, _, _, _, _, _, 0, [.block 0, .push, .block 1, .check], slowProg_ok.built,
    slowProg_ok.noRecursion (by decide +kernel), Small.allIn rfl rfl rfl, slowProg_tails, slowProg_danger, by decide⟩

end Verif
