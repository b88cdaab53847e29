import Verif.Summary

/-!
# Specification: call graphs and reasons for being unsafe

Nothing here mentions a traversal.
-/

namespace Verif

/-- `g` can be reached from `f` by zero or more recorded calls. -/
inductive Reach (S : Sums) : Func → Func → Prop
  | refl {f} : Reach S f f
  | step {f c g} : c ∈ (S f).callees → Reach S c g → Reach S f g

theorem Reach.trans {S : Sums} {a b c : Func} (h : Reach S a b) (h' : Reach S b c) :
    Reach S a c := by
  induction h with
  | refl => exact h'
  | step hc _ ih => exact .step hc (ih h')

theorem Reach.call {S : Sums} {a b c : Func} (h : Reach S a b) (h' : c ∈ (S b).callees) :
    Reach S a c := h.trans (.step h' .refl)

/-- Library functions trusted not to write unsafely. -/
def TrustedName (name : List Char) : Prop :=
  name = "malloc".toList ∨ name = "strlen".toList ∨ name = "strcmp".toList ∨
    "_Zna".toList <+: name

/-- The function itself gives a reason to protect it. -/
def LocalReason (s : FuncSummary) : Prop :=
  s.selfUnsafeWrites = true ∨ s.assumeUnsafe = true ∨ s.hasUnknownCf = true ∨
    s.unknownWrites ≠ [] ∨ ∃ a name, (a, name) ∈ s.pltCalls ∧ ¬ TrustedName name

/-- The function can reach one with a reason. -/
def HasReason (S : Sums) (f : Func) : Prop := ∃ g, Reach S f g ∧ LocalReason (S g)

/-- No function reachable from `f` is (mutually) recursive. -/
def NoRecursion (S : Sums) (f : Func) : Prop :=
  ∀ g c, Reach S f g → c ∈ (S g).callees → ¬ Reach S c g

/-- Every recorded callee is a function of the code object. -/
def Closed (S : Sums) (funcs : List Func) : Prop :=
  ∀ f ∈ funcs, ∀ c ∈ (S f).callees, c ∈ funcs

/-- Nothing has been propagated yet. -/
def Fresh (S : Sums) : Prop := ∀ f, (S f).writes = false ∧ (S f).childWrites = false

theorem HasReason.cases {S : Sums} {f : Func} (h : HasReason S f) :
    LocalReason (S f) ∨ ∃ c ∈ (S f).callees, HasReason S c := by
  obtain ⟨g, hr, hl⟩ := h
  cases hr with
  | refl => exact .inl hl
  | step hc hr => exact .inr ⟨_, hc, _, hr, hl⟩

theorem HasReason.call {S : Sums} {f c : Func} (hc : c ∈ (S f).callees) (h : HasReason S c) :
    HasReason S f := by
  obtain ⟨g, hr, hl⟩ := h
  exact ⟨g, .step hc hr, hl⟩

theorem NoRecursion.call {S : Sums} {f c : Func} (h : NoRecursion S f) (hc : c ∈ (S f).callees) :
    NoRecursion S c := fun g d hr hd => h g d (.step hc hr) hd

end Verif
