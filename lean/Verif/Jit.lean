import Verif.X86

/-!
# Code emission (`/repo/src/jit.cc`)

Each definition returns the list of instructions which the C++ function appends
to its assembler.  `none` stands for undefined behaviour or for an operand which
is not a register (a default-constructed `Gp`): dereferencing `end()`, a null
summary, an unknown register name.
-/

namespace Verif

/-- Command line flags read by `jit.cc` (`/repo/src/jit.cc:13-16`). -/
structure JitFlags where
  optimizeRegs : Bool := false
  validateFrame : Bool := false
  dryRun : String := ""

/-- `MoveInstData`, `/repo/src/pass_manager.h:31-39`. -/
structure MoveInst where
  newAddr : Nat
  raOffset : Int
  saveCount : Nat
  reg1 : String
  reg2 : String
  deriving DecidableEq, Repr

/-- `kRegisterMap`, `/repo/src/jit.cc:18-24`, in the iteration order of
`std::map<std::string, Gp>` (lexicographic on the names). -/
def regMap : List (String × Reg) :=
  [("x86_64::r10", .r10), ("x86_64::r11", .r11), ("x86_64::r12", .r12),
   ("x86_64::r13", .r13), ("x86_64::r14", .r14), ("x86_64::r15", .r15),
   ("x86_64::r8", .r8), ("x86_64::r9", .r9), ("x86_64::rax", .rax),
   ("x86_64::rbp", .rbp), ("x86_64::rbx", .rbx), ("x86_64::rcx", .rcx),
   ("x86_64::rdi", .rdi), ("x86_64::rdx", .rdx), ("x86_64::rsi", .rsi)]

/-- Lookup in `kRegisterMap`.  `/repo/src/jit.cc:18-24`. -/
def regOf (name : String) : Option Reg := regMap.lookup name

/-- `TempRegisters`, `/repo/src/jit.cc:26-33`; `none` is a default-constructed `Gp`. -/
structure Temps where
  tmp1 : Option Reg
  tmp2 : Option Reg
  tmp3 : Option Reg
  saved1 : Bool
  saved2 : Bool
  saved3 : Bool
  spOffset : Int

/-- The loop of the first constructor, `/repo/src/jit.cc:38-58`. -/
def pickTemps (exclude : List String) : List (String × Reg) → Nat → Temps → Temps
  | [], _, t => t
  | (name, r) :: rest, count, t =>
    let t' := if exclude.contains name then t else
      match count with
      | 0 => { t with tmp1 := some r }
      | 1 => { t with tmp2 := some r }
      | 2 => { t with tmp3 := some r }
      | _ => t
    let count' := if exclude.contains name then count else count + 1
    if count' = 2 then t' else pickTemps exclude rest count' t'

/-- First constructor of `TempRegisters`, `/repo/src/jit.cc:35-61`. -/
def Temps.ofExclude (exclude : List String) (height : Int) : Temps :=
  pickTemps exclude regMap 0
    { tmp1 := none, tmp2 := none, tmp3 := none,
      saved1 := true, saved2 := true, saved3 := true, spOffset := height }

/-- Second constructor of `TempRegisters`, `/repo/src/jit.cc:63-77`. -/
def Temps.ofMove (mid : MoveInst) (height : Int) : Temps :=
  { tmp1 := regOf mid.reg1
    tmp2 := if mid.saveCount = 2 then regOf mid.reg2 else
      match regMap with
      | (n, r) :: (_, r') :: _ => if n = mid.reg1 then some r' else some r
      | _ => none
    tmp3 := none
    saved1 := false
    saved2 := if mid.saveCount = 2 then false else true
    saved3 := true
    spOffset := mid.raOffset + height }

/-- `Save`, `/repo/src/jit.cc:92-95`. -/
def save (t : Temps) (r : Option Reg) : Option (Code × Temps) :=
  r.map fun r => ([.push r], { t with spOffset := t.spOffset + 8 })

/-- `UseSpecifiedRegisters`, `/repo/src/jit.cc:97-102`. -/
def useSpecified (mid : MoveInst) (height : Int) : Option (Code × Temps) := do
  let t := Temps.ofMove mid height
  let (c1, t) ← if t.saved1 then save t t.tmp1 else some ([], t)
  let (c2, t) ← if t.saved2 then save t t.tmp2 else some ([], t)
  return (c1 ++ c2, t)

/-- `SaveOrSkip` applied to `tmp1`, `/repo/src/jit.cc:80-90`. -/
def saveOrSkip1 (t : Temps) (name : String) : Option (Code × Temps) :=
  match regOf name with
  | some r => some ([], { t with tmp1 := some r, saved1 := false })
  | none => save t t.tmp1

/-- `SaveOrSkip` applied to `tmp2`.  `/repo/src/jit.cc:80-90,122`. -/
def saveOrSkip2 (t : Temps) (name : String) : Option (Code × Temps) :=
  match regOf name with
  | some r => some ([], { t with tmp2 := some r, saved2 := false })
  | none => save t t.tmp2

/-- `SaveOrSkip` applied to `tmp3`.  `/repo/src/jit.cc:80-90,128`. -/
def saveOrSkip3 (t : Temps) (name : String) : Option (Code × Temps) :=
  match regOf name with
  | some r => some ([], { t with tmp3 := some r, saved3 := false })
  | none => save t t.tmp3

/-- `*reg` after `reg++ != end()` at position `p` of the set, `/repo/src/jit.cc:115-116`:
the comparison uses the old position, the dereference the next one.  `none`
means that `end()` is dereferenced or incremented. -/
def derefNext (dead : List String) (p : Nat) : Option String :=
  if p = dead.length then none else dead[p + 1]?

/-- `SaveTempRegisters`, `/repo/src/jit.cc:104-135`.  `dead` lists the set in
iteration order. -/
def saveTemps (fl : JitFlags) (dead exclude : List String) (height : Int) :
    Option (Code × Temps) := do
  let t := Temps.ofExclude exclude height
  if (fl.optimizeRegs && dead.isEmpty) || !fl.optimizeRegs then
    let (c1, t) ← save t t.tmp1
    let (c2, t) ← save t t.tmp2
    return (c1 ++ c2, t)
  else
    let (c1, t) ← saveOrSkip1 t (← derefNext dead 0)
    let (c2, t) ← saveOrSkip2 t (← derefNext dead 1)
    let (c3, t) ← saveOrSkip3 t (← derefNext dead 2)
    return (c1 ++ c2 ++ c3, t)

/-- `RestoreTempRegisters`, `/repo/src/jit.cc:137-149` (the pop of `tmp3` is commented out). -/
def restoreTemps (t : Temps) : Option Code := do
  let c2 ← if t.saved2 then t.tmp2.map (fun r => [.pop r]) else some []
  let c1 ← if t.saved1 then t.tmp1.map (fun r => [.pop r]) else some []
  return c2 ++ c1

/-- `SaveRa`, `/repo/src/jit.cc:151-166`. -/
def saveRa (sp ra : Reg) (t : Temps) : Code :=
  [.load ra .rsp t.spOffset, .loadGs sp 0, .store sp 0 ra, .lea sp sp 8, .storeGs 0 sp]

/-- `SaveRaAndFrame`, `/repo/src/jit.cc:168-188`. -/
def saveRaAndFrame (sp ra : Reg) (t : Temps) : Code :=
  [.pushfq, .load ra .rsp t.spOffset, .loadGs sp 0, .addGs 0 16, .store sp 0 ra,
   .lea ra .rsp 24, .store sp 8 ra, .popfq]

/-- `ValidateRa`, `/repo/src/jit.cc:233-278` (`save_flags` is not used there). -/
def validateRa (sp ra : Reg) (t : Temps) : Code :=
  [.loadGs sp 0,
   .bind .loop, .lea sp sp (-8), .load ra sp 0, .storeGs 0 sp, .cmpMem ra .rsp t.spOffset,
   .je .done, .cmpDword sp 0, .je .error, .jmp .loop,
   .bind .error, .illegal, .bind .done]

/-- `ValidateRaAndFrame`, `/repo/src/jit.cc:280-336`. -/
def validateRaAndFrame (sp ra : Reg) (t : Temps) : Code :=
  [.pushfq, .loadGs sp 0,
   .bind .loop, .load ra sp (-16), .subGs 0 16, .cmpMem ra .rsp t.spOffset, .jne .unwind,
   .lea ra .rsp t.spOffset, .cmpMem ra sp (-8), .je .done,
   .bind .unwind, .subImm sp 16, .cmpDword sp 0, .je .error, .jmp .loop,
   .bind .error, .illegal, .bind .done, .popfq]

/-- The fields of `FuncSummary` which `jit.cc` reads (`/repo/src/pass_manager.h:212-221`). -/
structure JitSummary where
  deadAtEntry : List String := []
  deadAtExit : Nat → Option (List String) := fun _ => none
  unusedRegs : List String := []
  entryData : Nat → Option MoveInst := fun _ => none
  entryFixedData : Nat → Option MoveInst := fun _ => none
  exitData : Nat → Option MoveInst := fun _ => none

/-- The names of the registers which are dead at the entry of a function, and those found for the address of
an exit (`/repo/src/pass_manager.h:212-215`). -/
structure DeadNames where
  entry : List String := []
  exit : Nat → Option (List String) := fun _ => none

/-- What a stack snippet does between saving and restoring its scratch registers,
for the given flags.  `/repo/src/jit.cc:220-226,372-378`. -/
def body (fl : JitFlags) (plain frame : Reg → Reg → Temps → Code) (t : Temps) : Option Code := do
  let sp ← t.tmp1
  let ra ← t.tmp2
  if fl.dryRun ≠ "only-save" then
    if fl.validateFrame then return frame sp ra t else return plain sp ra t
  else return []

/-- The move descriptor chosen at `/repo/src/jit.cc:195-202`.  The outer `none`
is a null summary being dereferenced.  `blockStart` is `pt->block()->start()`,
`trgStart` is `pt->edge()->trg()->start()`. -/
def pushMove (s : Option JitSummary) (useOrig useFixed : Bool) (blockStart trgStart : Nat) :
    Option (Option MoveInst) :=
  if useOrig then s.map fun s => s.entryData blockStart
  else if useFixed then s.map fun s => s.entryFixedData trgStart
  else some none

/-- Choice of scratch registers in `JitStackPush`, `/repo/src/jit.cc:203-210`. -/
def pushTemps (fl : JitFlags) (s : Option JitSummary) (mid : Option MoveInst) (height : Int) :
    Option (Code × Temps) :=
  match mid, s with
  | some mid, _ => useSpecified mid height
  | none, some s => saveTemps fl s.deadAtEntry [] height
  | none, none => saveTemps fl [] [] 0

/-- `JitStackPush`, `/repo/src/jit.cc:190-231`, once the move descriptor is known. -/
def stackPushWith (fl : JitFlags) (s : Option JitSummary) (mid : Option MoveInst) (height : Int) :
    Option Code := do
  if fl.dryRun = "empty" then return []
  let (c1, t) ← pushTemps fl s mid height
  let c2 ← body fl saveRa saveRaAndFrame t
  let c3 ← restoreTemps t
  return c1 ++ c2 ++ c3

/-- `JitStackPush`, `/repo/src/jit.cc:190-231`. -/
def jitStackPush (fl : JitFlags) (s : Option JitSummary) (useOrig : Bool) (height : Int)
    (useFixed : Bool) (blockStart trgStart : Nat) : Option Code :=
  if fl.dryRun = "empty" then some [] else do
    stackPushWith fl s (← pushMove s useOrig useFixed blockStart trgStart) height

/-- Choice of scratch registers in `JitStackPop`, `/repo/src/jit.cc:348-362`. -/
def popTemps (fl : JitFlags) (s : Option JitSummary) (mid : Option MoveInst) (addr : Nat) :
    Option (Code × Temps) :=
  match mid, s with
  | some mid, _ => useSpecified mid 0
  | none, some s =>
    match s.deadAtExit addr with
    | some dead => saveTemps fl dead [] 0
    | none => saveTemps fl [] [] 0
  | none, none => saveTemps fl [] [] 0

/-- `JitStackPop`, `/repo/src/jit.cc:338-383`, once the move descriptor is known;
`addr` is `pt->addr()`. -/
def stackPopWith (fl : JitFlags) (s : Option JitSummary) (mid : Option MoveInst) (addr : Nat) :
    Option Code := do
  if fl.dryRun = "empty" then return []
  let (c1, t) ← popTemps fl s mid addr
  let c2 ← body fl validateRa validateRaAndFrame t
  let c3 ← restoreTemps t
  return c1 ++ c2 ++ c3

/-- The move descriptor chosen at `/repo/src/jit.cc:344-348`. -/
def popMove (s : Option JitSummary) (useOrig : Bool) (blockStart : Nat) :
    Option (Option MoveInst) :=
  if useOrig then s.map fun s => s.exitData blockStart else some none

/-- `JitStackPop`, `/repo/src/jit.cc:338-383`. -/
def jitStackPop (fl : JitFlags) (s : Option JitSummary) (useOrig : Bool)
    (blockStart addr : Nat) : Option Code :=
  if fl.dryRun = "empty" then some [] else do
    stackPopWith fl s (← popMove s useOrig blockStart) addr

/-- `GetUnusedRegister`, `/repo/src/jit.cc:385-393`: the first element of the set. -/
def getUnusedRegister (s : JitSummary) : Option (String × Reg) := do
  let name ← s.unusedRegs.head?
  let r ← regOf name
  return (name, r)

/-- `JitRegisterPush`, `/repo/src/jit.cc:395-421`. -/
def jitRegisterPush (fl : JitFlags) (s : JitSummary) (height : Int) : Option Code :=
  if fl.dryRun = "empty" then some [] else do
    let (_, reg) ← getUnusedRegister s
    return [.storeGs 8 reg] ++ (if fl.dryRun ≠ "only-save" then [.load reg .rsp height] else [])

/-- `JitRegisterPop`, `/repo/src/jit.cc:423-487`. -/
def jitRegisterPop (fl : JitFlags) (s : JitSummary) : Option Code :=
  if fl.dryRun = "empty" then some [] else do
    let (name, reg) ← getUnusedRegister s
    if fl.dryRun ≠ "only-save" then
      let (c1, t) ← saveTemps fl [] [name] 0
      let sp ← t.tmp1
      let ra ← t.tmp2
      let c3 ← restoreTemps t
      return [.cmpMem reg .rsp 0, .je .success] ++ c1 ++ validateRa sp ra t ++ c3 ++
        [.bind .success, .loadGs reg 8]
    else return [.loadGs reg 8]

example : jitStackPush {} none false 0 false 0 0 = some
    [.push .r10, .push .r11, .load .r11 .rsp 16, .loadGs .r10 0, .store .r10 0 .r11,
     .lea .r10 .r10 8, .storeGs 0 .r10, .pop .r11, .pop .r10] := by decide

end Verif
