import Verif.Program
import Verif.Plan

/-!
# Starting a program (specification of C111), and the resolvers of indirect functions

The constructor of the runtime library sets up the shadow stack of the main thread.  Before it has
done so, functions of the program may be executed:

* while relocating the program the loader calls the resolvers of indirect functions (symbols of type
  `STT_GNU_IFUNC`);
* then the functions of its `DT_PREINIT_ARRAY`;
* then the constructors of the libraries on which the runtime library depends, and of those which
  happen to come before it; they may call functions of the program, because the loader binds a name
  to the first definition, which may be the program's;
* last, the constructor of the runtime library calls `malloc` and `syscall`, which may be the
  program's as well (`/repo/src/runtime.c:39-40`).

Pushes and checks executed then use the gs base with which the process was started, which is 0.

The runtime library is loaded with `LD_PRELOAD` (`/repo/script/run.sh:9`).
-/

namespace Verif

/-! ## The model: `GetIFUNCs` -/

/-- A symbol of a module: its offset, and whether its type is `ST_INDIRECT`. -/
structure Sym where
  offset : Nat
  indirect : Bool
  deriving DecidableEq, Repr

/-- `GetIFUNCs`, `/repo/src/instrument.cc:903-913`: the set `addrs`, as a list. -/
def getIfuncs (syms : List Sym) : List Nat :=
  ((syms.filter (·.indirect)).map (·.offset)).eraseDups

/-- `InstrumentModule`, `/repo/src/instrument.cc:915-942`, with the set `ifuncAddrs` computed at lines
921-922; nothing uses it.  The loop is that of `instrumentObject`. -/
def instrumentModule (fl : InstrFlags) (skip : List Nat) (co : CodeObj)
    (an : Nat → Option (FuncSummary × List WriteInfo)) (syms : List Sym) (fs : List BFunc)
    (r : List (BFunc × Plan) × Stats) : Option (List (BFunc × Plan) × Stats) :=
  let _ifuncAddrs := getIfuncs syms
  fs.foldlM (moduleStep fl skip co an) r

/-! ## The specification: what happens before the shadow stack exists -/

/-- What the loader does with the program before its constructors and `main`.  `bound n` is the
function of the program to which the loader has bound the name `n`, if any. -/
structure Loading where
  resolvers : List Func := []
  preinit : List Func := []
  /-- functions of the program which constructors of libraries call that come before the runtime
  library's -/
  before : List Func := []
  bound : String → Option Func := fun _ => none

/-- How far the loader has come.  `atMalloc` and `atSyscall` are lines 39 and 40 of
`/repo/src/runtime.c`; `ready`: the constructor has finished. -/
inductive Phase
  | relocating
  | preinit (rest : List Func)
  | before
  | atMalloc
  | atSyscall
  | ready
  deriving DecidableEq

/-- The functions of the program in execution, innermost first: each with what it has executed. -/
abbrev Frames := List (Func × List Ev)

/-- One step of the loader, when no function of the program is in execution. -/
inductive LoaderStep (L : Loading) : Phase → Phase → Frames → Prop
  | resolve {f} : f ∈ L.resolvers → LoaderStep L .relocating .relocating [(f, [])]
  | relocated : LoaderStep L .relocating (.preinit L.preinit) []
  | preinit {f fs} : LoaderStep L (.preinit (f :: fs)) (.preinit fs) [(f, [])]
  | libraries : LoaderStep L (.preinit []) .before []
  | constructor {f} : f ∈ L.before → LoaderStep L .before .before [(f, [])]
  | malloc : LoaderStep L .before .atMalloc ((L.bound "malloc").toList.map fun f => (f, []))
  | syscall : LoaderStep L .atMalloc .atSyscall ((L.bound "syscall").toList.map fun f => (f, []))
  | setUp : LoaderStep L .atSyscall .ready []

/-- What may be going on, until the constructor of the runtime library has finished. -/
inductive Starting (m : ProgSem) (L : Loading) : Phase → Frames → Prop
  | start : Starting m L .relocating []
  | loader {p p' fs} : Starting m L p [] → LoaderStep L p p' fs → Starting m L p' fs
  | event {p f t e as} : Starting m L p ((f, t) :: as) → m.trace f (t ++ [e]) → p ≠ .ready →
      Starting m L p ((f, t ++ [e]) :: as)
  | call {p f t g as} : Starting m L p ((f, t) :: as) → m.calls f t g → p ≠ .ready →
      Starting m L p ((g, []) :: (f, t) :: as)
  | tail {p f t g as} : Starting m L p ((f, t) :: as) → m.tails f t g → p ≠ .ready →
      Starting m L p ((g, []) :: as)
  | leave {p f t as} : Starting m L p ((f, t) :: as) → p ≠ .ready → Starting m L p as

/-- No push and no check is executed before the shadow stack exists. -/
def SetUpFirst (m : ProgSem) (L : Loading) : Prop :=
  ∀ p fs, Starting m L p fs → ∀ a ∈ fs, Ev.push ∉ a.2 ∧ Ev.check ∉ a.2

/-- The functions of the program which the loader, the libraries or the constructor call before the
shadow stack exists. -/
def Loading.Early (L : Loading) (f : Func) : Prop :=
  f ∈ L.resolvers ∨ f ∈ L.preinit ∨ f ∈ L.before ∨ L.bound "malloc" = some f ∨ L.bound "syscall" = some f

end Verif
