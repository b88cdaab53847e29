/-!
# What the tool prints

`/repo/src/utils.cc:17-113` with `/repo/src/utils.h:13-38`: messages in colours on `std::cout`, or on a stream to
`/dev/null`; and all messages of the tool in the order in which it prints them, `/repo/src/instrument.cc:575-591, 704-706,
743-766, 944-1103`, `/repo/src/pass_manager.h:341-372, 443-450` and `/repo/src/passes.h:134-138`.  `std::hex` and `std::dec` are
manipulators: they change the stream, not the message.

What the messages are about is given: which object has which functions, what becomes of them, and what the passes count.
Percentages are given as they are printed.  Texts are lists of characters.
-/

namespace Verif.Console

inductive Hue
  | black | red | green | yellow | blue | magenta | cyan | white

/-- `/repo/src/utils.h:13-32`. -/
inductive Color
  | off
  | plain (h : Hue)
  | bold (h : Hue)

def ESC : Char := '\x1b'

def Hue.digit : Hue → Char
  | .black => '0' | .red => '1' | .green => '2' | .yellow => '3' | .blue => '4' | .magenta => '5' | .cyan => '6' | .white => '7'

/-- `AnsiColor`, `/repo/src/utils.cc:38-55`. -/
def Color.code : Color → List Char
  | .off => []
  | .plain h => [ESC, '[', '3', h.digit, 'm']
  | .bold h => [ESC, '[', '1', ';', '3', h.digit, 'm']

/-- `AnsiColor::END`, `/repo/src/utils.cc:46`. -/
def endCode : List Char := [ESC, '[', '0', 'm']

inductive Base
  | dec | hex

/-- How integers are printed.  Only `unknown`, `/repo/src/instrument.cc:1093`, can be negative; it is an `int`. -/
def digits : Base → Int → List Char
  | .dec, n => if n < 0 then '-' :: Nat.toDigits 10 n.natAbs else Nat.toDigits 10 n.natAbs
  | .hex, n => Nat.toDigits 16 (if n < 0 then n + 2 ^ 32 else n).toNat

/-- What is put into a stream with `<<`. -/
inductive Item
  | text (s : List Char)
  | num (n : Int)
  /-- a floating-point number: the base does not matter -/
  | real (s : List Char)
  | hex
  | dec
  /-- `Endl`, `/repo/src/utils.cc:111-113` -/
  | endl

/-- A stream: its base, and what has been written. -/
structure Stream where
  base : Base := .dec
  out : List Char := []

def Stream.put (s : Stream) : Item → Stream
  | .text t | .real t => { s with out := s.out ++ t }
  | .num n => { s with out := s.out ++ digits s.base n }
  | .hex => { s with base := .hex }
  | .dec => { s with base := .dec }
  | .endl => { s with out := s.out ++ (endCode ++ ['\n']) }

/-- One statement `StdOut(color, logged) << items`. -/
structure Message where
  color : Color
  logged : Bool
  items : List Item

/-- `std::cout` and `*dev_null`, `/repo/src/utils.cc:65-76`. -/
structure Streams where
  cout : Stream := {}
  null : Stream := {}

/-- `StdOut`, `/repo/src/utils.cc:78-109`. -/
def Streams.say (s : Streams) (m : Message) : Streams :=
  if m.logged then { s with cout := m.items.foldl Stream.put { s.cout with out := s.cout.out ++ (endCode ++ m.color.code) } }
  else { s with null := m.items.foldl Stream.put s.null }

/-- The tool's messages one after the other. -/
def say (ms : List Message) : Streams := ms.foldl Streams.say {}

/-! ## The messages -/

/-- `--vv`, `--libs`, `--shadow_stack=light`, `--threat_model=trust_system`. -/
structure Flags where
  vv : Bool
  libs : Bool
  light : Bool
  trust : Bool

/-- What becomes of a function in light mode: it is safe, it is on the skip list, its instrumentation is lowered, it uses
registers, it has a fast path, or nothing of that. -/
inductive Fate
  | safe | listed | lowered | register | fast | other
deriving DecidableEq

structure Fn where
  name : List Char
  addr : Nat
  fate : Fate

/-- A pass over the functions of an object: the functions which are too large, and how many are safe after it. -/
structure PassRun where
  name : List Char
  description : List Char
  large : List (List Char × Nat)
  count : Nat

structure Object where
  shared : Bool
  path : List Char
  system : Bool
  passes : List PassRun
  elapsed : Nat
  safe : Nat
  nonsafe : Nat
  funcs : List Fn

/-- The counters of `/repo/src/instrument.cc:65-79`, at the end. -/
structure Totals where
  indirectOrPlt : Nat
  indirect : Nat
  plt : Nat
  writes : Nat
  stack : Nat
  global : Nat
  heap : Nat
  arg : Nat
  heapOrArg : Nat
  noDead : Nat
  totalDead : Nat
  noDeadEntry : Nat
  noDeadExit : Nat
  lowDead : Nat

def red : Color := .plain .red
def blue : Color := .plain .blue
def yellow : Color := .plain .yellow

/-- `InstrumentFunction` and `Skippable`. -/
def fnMessages (fl : Flags) (f : Fn) : List Message :=
  ⟨yellow, fl.vv, [.text "     Function : ".toList, .text f.name, .endl]⟩ ::
  if fl.light then
    match f.fate with
    | .safe => [⟨red, fl.vv, [.text "      Skipping function : ".toList, .text f.name, .endl]⟩]
    | .listed => [⟨red, fl.vv, [.text "      Skipping function (user's skip list): ".toList, .text f.name, .endl]⟩]
    | .lowered => [⟨red, fl.vv, [.text "      Optimized instrumentation lowering for function at 0x".toList, .hex, .num f.addr, .endl]⟩]
    | .fast => [⟨red, fl.vv, [.text "      Optimized fast path instrumentation for function at 0x".toList, .hex, .num f.addr, .endl]⟩]
    | .register | .other => []
  else []

/-- `RunPass` and `LargeFunctionFilter`. -/
def passMessages (fl : Flags) (p : PassRun) : List Message :=
  (if fl.vv then
    [⟨yellow, true, [.text "------------------------------------".toList, .endl]⟩,
     ⟨yellow, true, [.text "Running pass > ".toList, .text p.name, .endl]⟩,
     ⟨yellow, true, [.text "  Description : ".toList, .text p.description, .endl]⟩] else []) ++
  (p.large.map fun x => ⟨red, fl.vv, [.text "    Skipping large function ".toList, .text x.1, .text " with size : ".toList, .num x.2,
    .endl]⟩) ++
  [⟨yellow, fl.vv, [.text "  Safe Functions Found (cumulative) : ".toList, .num p.count, .endl]⟩]

/-- The end of `PassManager::Run`. -/
def summaryMessages (fl : Flags) (o : Object) : List Message :=
  if fl.vv then
    [⟨blue, true, [.text "Analysis took ".toList, .num o.elapsed, .text " seconds.".toList, .endl]⟩,
     ⟨blue, true, [.text "\nSummary: ".toList, .endl]⟩,
     ⟨blue, true, [.text "  Safe Functions Found : ".toList, .num o.safe, .endl]⟩,
     ⟨blue, true, [.text "  Non Safe Functions : ".toList, .num o.nonsafe, .endl]⟩] else []

/-- The first message of `InstrumentCodeObject`. -/
def objectHeader (fl : Flags) (o : Object) : Message :=
  if o.shared then ⟨.plain .green, fl.vv, [.text "\n    Instrumenting ".toList, .text o.path, .endl]⟩
  else ⟨.plain .green, fl.vv, [.text "\n  >> Instrumenting main application ".toList, .text o.path, .endl]⟩

/-- The analysis of an object. -/
def analysis (fl : Flags) (o : Object) : List Message :=
  if fl.light then o.passes.flatMap (passMessages fl) ++ summaryMessages fl o else []

/-- Its code is left alone. -/
def Object.passed (fl : Flags) (o : Object) : Bool := fl.trust && o.system

/-- `InstrumentCodeObject`. -/
def objectMessages (fl : Flags) (o : Object) : List Message :=
  objectHeader fl o :: if o.passed fl then [] else analysis fl o ++ o.funcs.flatMap (fnMessages fl)

/-- The objects which are not skipped, `/repo/src/instrument.cc:1033-1042`. -/
def chosen (fl : Flags) (os : List Object) : List Object := os.filter fun o => fl.libs || !o.shared

/-- The functions which `InstrumentFunction` gets. -/
def handled (fl : Flags) (os : List Object) : List Fn := ((chosen fl os).filter fun o => !o.passed fl).flatMap Object.funcs

/-- How many functions fared so, in light mode. -/
def fared (fl : Flags) (os : List Object) (p : Fate → Bool) : Nat :=
  if fl.light then ((handled fl os).filter fun f => p f.fate).length else 0

/-- The report at the end; `pct` is how a percentage is printed. -/
def report (fl : Flags) (os : List Object) (t : Totals) (pct : Int → Nat → List Char) : List Message :=
  let total := (handled fl os).length
  let safe := fared fl os fun f => f == .safe || f == .listed
  let reg := fared fl os fun f => f == .register
  let low := fared fl os fun f => f == .lowered || f == .fast
  let unknown : Int := t.writes - t.stack - t.global - t.heap - t.arg - t.heapOrArg
  let share (n : Int) : List Item := [.num n, .text "(".toList, .real (pct n t.writes), .text "%)".toList, .endl]
  [⟨red, true, [.text "Safe functions : ".toList, .dec, .num safe, .text "(".toList, .real (pct safe total), .text "%)".toList,
      .text "\n  ".toList]⟩,
   ⟨blue, true, [.endl, .endl]⟩,
   ⟨red, true, [.text "Register stack functions : ".toList, .num reg, .text "(".toList, .real (pct reg total), .text "%)".toList,
      .text "\n  ".toList]⟩,
   ⟨blue, true, [.endl, .endl]⟩,
   ⟨red, true, [.text "Lowering stack functions : ".toList, .num low, .text "(".toList, .real (pct low total), .text "%)".toList,
      .text "\n  ".toList]⟩,
   ⟨blue, true, [.endl]⟩,
   ⟨red, true, [.text "Functions with indirect call or plt calls : ".toList, .num t.indirectOrPlt, .endl]⟩,
   ⟨red, true, [.text "Functions with indirect call: ".toList, .num t.indirect, .endl]⟩,
   ⟨red, true, [.text "Functions with plt calls : ".toList, .num t.plt, .endl]⟩,
   ⟨red, true, [.text "Total functions : ".toList, .num total, .endl]⟩,
   ⟨red, true, [.text "Total memory writes : ".toList, .num t.writes, .endl]⟩,
   ⟨red, true, .text "\tStack writes : ".toList :: share t.stack⟩,
   ⟨red, true, .text "\tGlobal writes : ".toList :: share t.global⟩,
   ⟨red, true, .text "\tHeap writes : ".toList :: share t.heap⟩,
   ⟨red, true, .text "\tArg writes : ".toList :: share t.arg⟩,
   ⟨red, true, .text "\tHeap_or_arg writes : ".toList :: share t.heapOrArg⟩,
   ⟨red, true, .text "\tUnknown writes : ".toList :: share unknown⟩,
   ⟨red, true, [.text "Dead register optimization : ".toList, .num t.noDead, .text "/".toList, .num t.totalDead, .endl]⟩,
   ⟨red, true, [.text "Lowering dead register optimization : ".toList, .num t.noDeadEntry, .text "/".toList, .num t.noDeadExit,
      .text "/".toList, .num t.lowDead, .endl]⟩]

/-- The beginning of `Instrument`. -/
def greeting (fl : Flags) : List Message :=
  [⟨blue, fl.vv, [.text "\n\nInstrumentation Pass".toList, .endl]⟩, ⟨blue, fl.vv, [.text "====================".toList, .endl]⟩,
   ⟨blue, true, [.text "+ Instrumenting the binary...".toList, .endl]⟩]

/-- `Instrument`: all of its messages. -/
def messages (fl : Flags) (os : List Object) (t : Totals) (pct : Int → Nat → List Char) : List Message :=
  greeting fl ++ (chosen fl os).flatMap (objectMessages fl) ++ report fl os t pct

/-! ## Specification: a terminal -/

/-- How characters look. -/
structure Look where
  bold : Bool := false
  hue : Option Hue := none

/-- What the terminal is reading: text, what follows an escape character, or the parameters of a control sequence. -/
inductive Mode
  | text
  | escape
  | control (params : List Char)

/-- A terminal: what it is reading, how the next characters will look, and what is shown. -/
structure Terminal where
  mode : Mode := .text
  look : Look := {}
  cells : List (Char × Look) := []

def hueOf : Char → Option Hue
  | '0' => some .black | '1' => some .red | '2' => some .green | '3' => some .yellow
  | '4' => some .blue | '5' => some .magenta | '6' => some .cyan | '7' => some .white
  | _ => none

/-- One parameter of "select graphic rendition" (ECMA-48, 8.3.117). -/
def Look.select (l : Look) : List Char → Look
  | [] | ['0'] => {}
  | ['1'] => { l with bold := true }
  | ['3', d] => { l with hue := hueOf d }
  | _ => l

/-- The parameters, separated by semicolons. -/
def params : List Char → List (List Char)
  | [] => [[]]
  | c :: cs => if c = ';' then [] :: params cs else match params cs with
    | [] => [[c]]
    | p :: ps => (c :: p) :: ps

/-- The terminal reads a character. -/
def Terminal.read (t : Terminal) (c : Char) : Terminal :=
  match t.mode with
  | .text => if c = ESC then { t with mode := .escape } else { t with cells := t.cells ++ [(c, t.look)] }
  | .escape => { t with mode := if c = '[' then .control [] else .text }
  | .control ps => if c = 'm' then { t with mode := .text, look := (params ps).foldl Look.select t.look }
    else { t with mode := .control (ps ++ [c]) }

def display (cs : List Char) : Terminal := cs.foldl Terminal.read {}

/-! ## Specification: what the user should see -/

/-- The look which belongs to a colour. -/
def Color.look : Color → Look
  | .off => {}
  | .plain h => ⟨false, some h⟩
  | .bold h => ⟨true, some h⟩

/-- A message: its text looks as the colour says, up to the end of the line. -/
def shown (l : Look) (b : Base) : List Item → List (Char × Look)
  | [] => []
  | .text s :: is | .real s :: is => s.map (·, l) ++ shown l b is
  | .num n :: is => (digits b n).map (·, l) ++ shown l b is
  | .hex :: is => shown l .hex is
  | .dec :: is => shown l .dec is
  | .endl :: is => ('\n', {}) :: shown {} b is

/-- Every message by itself: numbers are decimal unless the message says otherwise. -/
def wanted (ms : List Message) : List (Char × Look) :=
  (ms.filter Message.logged).flatMap fun m => shown m.color.look .dec m.items

/-- A message leaves the stream's base changed to hexadecimal: a function was lowered or has a fast path. -/
def Object.spoils (fl : Flags) (o : Object) : Bool :=
  fl.vv && fl.light && !o.passed fl && o.funcs.any fun f => f.fate == .lowered || f.fate == .fast

/-- The objects' messages if numbers of the analysis are printed in the base which earlier objects have left. -/
def drifted (fl : Flags) : Base → List Object → List (Char × Look)
  | _, [] => []
  | b, o :: os => wanted [objectHeader fl o] ++
      (if o.passed fl then [] else
        ((analysis fl o).filter Message.logged).flatMap (fun m => shown m.color.look b m.items) ++
        wanted (o.funcs.flatMap (fnMessages fl))) ++
      drifted fl (if o.spoils fl then .hex else b) os

/-- Names contain no escape characters, nor do percentages. -/
structure Clean (os : List Object) (pct : Int → Nat → List Char) : Prop where
  path : ∀ o ∈ os, ESC ∉ o.path
  fn : ∀ o ∈ os, ∀ f ∈ o.funcs, ESC ∉ f.name
  pass : ∀ o ∈ os, ∀ p ∈ o.passes, ESC ∉ p.name ∧ ESC ∉ p.description ∧ ∀ x ∈ p.large, ESC ∉ x.1
  pct : ∀ n k, ESC ∉ pct n k

end Verif.Console
