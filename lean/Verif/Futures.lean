import Verif.ImageCores

/-!
# Specification: at every moment, the same may happen next

`RefineCores` and `ImageCores` say that what the outside world can see of one program from the beginning to any moment it can see
of the other.  Here the two are compared moment by moment: whatever has happened, both can go on in the same ways (weak
bisimulation).  Neither may have decided for something while the other is still free to do otherwise, or be stuck while the other
is not.
-/

namespace Verif

variable {ι κ L : Type} [DecidableEq ι]

/-- What may happen to the instrumented program from here on; `none`: it is killed. -/
inductive ArmedFrom (P : CoreGuest κ L) (N : Cores ι (Stand κ)) : List (ι × L) → Option (Cores ι (Stand κ)) → Prop
  | start : ArmedFrom P N [] (some N)
  | step {tr : List (ι × L)} {N' : Cores ι (Stand κ)} {i : ι} {ls : List L} {c : Option (Cores ι (Stand κ))} :
      ArmedFrom P N tr (some N') → ArmedMove P N' i ls c → ArmedFrom P N (tr ++ ls.map (Prod.mk i)) c

/-- Likewise if its snippets are bytes in memory. -/
inductive ByteFrom (P : CoreGuest κ L) (I : Image κ) (N : Cores ι (Footing κ)) :
    List (ι × L) → Option (Cores ι (Footing κ)) → Prop
  | start : ByteFrom P I N [] (some N)
  | step {tr : List (ι × L)} {N' : Cores ι (Footing κ)} {i : ι} {ls : List L} {c : Option (Cores ι (Footing κ))} :
      ByteFrom P I N tr (some N') → ByteMove P I N' i ls c → ByteFrom P I N (tr ++ ls.map (Prod.mk i)) c

/-- Moments of the original and of the instrumented program which correspond: memory outside of the areas is the same, threads
are at the same points and cannot tell their states apart, and what one may do from there on the other may, so that the moments
after it correspond again; snippets do not kill it. -/
structure CoreBisim (P : CoreGuest κ L) (D : ι → Blind κ) (A : ι → W → Prop) (R : Cores ι κ → Cores ι (Stand κ) → Prop) : Prop where
  mem : ∀ M N, R M N → ∀ x, (∀ i, ¬ A i x) → N.mem x = M.mem x
  same : ∀ M N, R M N → ∀ i, (N.pos i).point = M.pos i ∧ ∀ k, N.pos i = .own k → (coreBlind D A i).Same k (M.at_ i) (N.at_ i)
  forth : ∀ M N tr M', R M N → CoreRun P M tr M' → ∃ N', ArmedFrom P N tr (some N') ∧ R M' N'
  back : ∀ M N tr c, R M N → ArmedFrom P N tr c → ∃ M' N', c = some N' ∧ CoreRun P M tr M' ∧ R M' N'

/-- Likewise for the bytes. -/
structure ByteBisim (P : CoreGuest κ L) (I : Image κ) (D : ι → Blind κ) (A : ι → W → Prop)
    (R : Cores ι κ → Cores ι (Footing κ) → Prop) : Prop where
  mem : ∀ M N, R M N → ∀ x, (∀ i, ¬ A i x) → N.mem x = M.mem x
  same : ∀ M N, R M N → ∀ i, (N.pos i).point I = M.pos i ∧ ∀ k, N.pos i = .own k → (coreBlind D A i).Same k (M.at_ i) (N.at_ i)
  forth : ∀ M N tr M', R M N → CoreRun P M tr M' → ∃ N', ByteFrom P I N tr (some N') ∧ R M' N'
  back : ∀ M N tr c, R M N → ByteFrom P I N tr c → ∃ M' N', c = some N' ∧ CoreRun P M tr M' ∧ R M' N'

/-- The program in memory and the original begin with corresponding moments. -/
def Image.Bisimilar (I : Image κ) (P : CoreGuest κ L) (D : ι → Blind κ) (A : ι → W → Prop) (M0 : Cores ι κ) : Prop :=
  ∃ R, ByteBisim P I D A R ∧ R M0 M0.load

/-- The traces which are possible from a moment of the original. -/
def CoreGuest.Next (P : CoreGuest κ L) (M : Cores ι κ) (tr : List (ι × L)) : Prop := ∃ M', CoreRun P M tr M'

/-- Those which are possible from a moment of the program in memory. -/
def Image.Next (I : Image κ) (P : CoreGuest κ L) (N : Cores ι (Footing κ)) (tr : List (ι × L)) : Prop :=
  ∃ N', ByteFrom P I N tr (some N')

end Verif
