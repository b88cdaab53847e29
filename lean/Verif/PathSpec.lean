import Verif.Cfg

/-!
# Specification: walks through a function and what they execute

Independent of any transformation: walks over edges, and the sequence of blocks, pushes and
checks executed by a walk through a function whose blocks exist in an original and a copied
version.
-/

namespace Verif

/-- The edge stays inside the function. -/
def Flow (e : Edge) : Prop := e.sink = false ∧ e.interproc = false

/-- The edge stays inside the function and does not lead to an exception handler. -/
def Follow (e : Edge) : Prop := e.sink = false ∧ e.interproc = false ∧ e.type ≠ .catch

instance (e : Edge) : Decidable (Flow e) := inferInstanceAs (Decidable (_ ∧ _))

instance (e : Edge) : Decidable (Follow e) := inferInstanceAs (Decidable (_ ∧ _))

theorem Follow.flow {e : Edge} (h : Follow e) : Flow e := ⟨h.1, h.2.1⟩

/-- A walk over edges satisfying `ok`. -/
inductive Walk (targets : Blk → List Edge) (ok : Edge → Prop) : Blk → List Edge → Blk → Prop
  | nil (b : Blk) : Walk targets ok b [] b
  | cons {b b' : Blk} {e : Edge} {es : List Edge} : e ∈ targets b → ok e →
      Walk targets ok e.trg es b' → Walk targets ok b (e :: es) b'

/-- A walk through originals and copies, where `d` tells where the edges lead. -/
inductive CopyWalk (targets : Blk → List Edge) (ok : Edge → Prop) (d : Edge → Bool → Blk × Bool) :
    Blk × Bool → List Edge → Blk × Bool → Prop
  | nil (n : Blk × Bool) : CopyWalk targets ok d n [] n
  | cons {n n' : Blk × Bool} {e : Edge} {es : List Edge} : e ∈ targets n.1 → ok e →
      CopyWalk targets ok d (d e n.2) es n' → CopyWalk targets ok d n (e :: es) n'

theorem CopyWalk.snoc {targets : Blk → List Edge} {ok : Edge → Prop} {d : Edge → Bool → Blk × Bool}
    {m n : Blk × Bool} {es : List Edge} {e : Edge} (h : CopyWalk targets ok d m es n)
    (he : e ∈ targets n.1) (hok : ok e) : CopyWalk targets ok d m (es ++ [e]) (d e n.2) := by
  induction h with
  | nil n => exact .cons he hok (.nil _)
  | cons h1 h2 _ ih => exact .cons h1 h2 (ih he)

theorem CopyWalk.mono {targets : Blk → List Edge} {ok ok' : Edge → Prop}
    {d : Edge → Bool → Blk × Bool} {m n : Blk × Bool} {es : List Edge}
    (h : CopyWalk targets ok d m es n) (hok : ∀ e, ok e → ok' e) : CopyWalk targets ok' d m es n := by
  induction h with
  | nil n => exact .nil _
  | cons h1 h2 _ ih => exact .cons h1 (hok _ h2) ih

/-- What is executed. -/
inductive Ev
  | push
  | check
  | block (b : Blk)
  deriving DecidableEq, Repr

/-- Execution of one block: its push if it has one, its code, and its check if it is a copy
with a check. -/
def nodeEv (P : List (Blk × Bool)) (X : List Blk) (n : Blk × Bool) : List Ev :=
  (if n ∈ P then [.push] else []) ++ [.block n.1] ++ (if n.2 = true ∧ n.1 ∈ X then [.check] else [])

/-- Execution of an edge of an original or a copy: its push if it has one. -/
def edgeEv (R : List Edge) (e : Edge) (c : Bool) : List Ev :=
  if c = false ∧ e ∈ R then [.push] else []

/-- Everything executed along a walk from block `n`: pushes on the edges in `R` (of originals)
and in the blocks in `P`, checks at the end of the copies of the blocks in `X`. -/
def traceFrom (d : Edge → Bool → Blk × Bool) (R : List Edge) (P : List (Blk × Bool)) (X : List Blk) :
    Blk × Bool → List Edge → List Ev
  | n, [] => nodeEv P X n
  | n, e :: es => nodeEv P X n ++ edgeEv R e n.2 ++ traceFrom d R P X (d e n.2) es

/-- The blocks visited by a walk. -/
def visits (b : Blk) (es : List Edge) : List Blk := b :: es.map (·.trg)

end Verif
