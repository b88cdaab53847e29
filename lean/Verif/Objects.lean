import Verif.Whole

/-!
# Specification: programs consisting of several code objects

As in `Whole.lean`, and functions of one code object may call those of another: through the stub of a
library function, to whichever function the loader has bound the stub's name, and from unknown code, which
may call any function of any code object.
-/

namespace Verif

/-- An instrumented code object. -/
structure Obj where
  code : CodeObj
  info : StackInfo
  plan : Func → Plan
  inReg : Func → Prop
  stays : Func → Prop

namespace Obj
variable (ok : Edge → Prop) (o : Obj)

/-- The code object on its own. -/
def sem : ProgSem := semOn ok o.code o.plan o.info o.inReg o.stays

/-- Having executed these events the function may call or jump to unknown code. -/
def outside (f : Func) (t : List Ev) : Prop :=
  (∃ b, AtEndOn ok o.code o.plan f t b ∧ ∃ e ∈ o.code.targets b, UnknownCall o.code e) ∨
  (∃ b, EndsOn ok o.code o.plan f t b ∧ ∃ e ∈ o.code.targets b, UnknownJump o.code e)

/-- Having executed these events the function may call the library function of this name. -/
def libCall (f : Func) (t : List Ev) (n : List Char) : Prop :=
  ∃ b, AtEndOn ok o.code o.plan f t b ∧ ∃ e ∈ o.code.targets b, LibCall o.code e n

/-- Having executed these events the function may jump to the library function of this name. -/
def libJump (f : Func) (t : List Ev) (n : List Char) : Prop :=
  ∃ b, EndsOn ok o.code o.plan f t b ∧ ∃ e ∈ o.code.targets b, LibJump o.code e n

end Obj

/-- All code objects together.  `who` tells which code object a function belongs to, and which one of
its functions it is; `binds n g`: the loader has bound the name `n` to `g`. -/
def semAll {ι : Type} (ok : Edge → Prop) (obj : ι → Obj) (who : Func → ι × Func)
    (binds : List Char → Func → Prop) : ProgSem where
  trace f t := ((obj (who f).1).sem ok).trace (who f).2 t
  complete f t := ((obj (who f).1).sem ok).complete (who f).2 t
  danger f t := ((obj (who f).1).sem ok).danger (who f).2 t
  calls f t g := (who g).2 ∈ (obj (who g).1).code.funcs ∧
    (((who g).1 = (who f).1 ∧ ((obj (who f).1).sem ok).calls (who f).2 t (who g).2) ∨
     (obj (who f).1).outside ok (who f).2 t ∨
     ∃ n, (obj (who f).1).libCall ok (who f).2 t n ∧ binds n g)
  tails f t g := (who g).2 ∈ (obj (who g).1).code.funcs ∧
    (((who g).1 = (who f).1 ∧ ((obj (who f).1).sem ok).tails (who f).2 t (who g).2) ∨
     ∃ n, (obj (who f).1).libJump ok (who f).2 t n ∧ binds n g)
  inReg f := (obj (who f).1).inReg (who f).2
  stays f := (obj (who f).1).stays (who f).2

end Verif
