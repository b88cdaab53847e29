# ShadowGuard: formal model and proofs

Subject: `/repo` (ShadowGuard, a binary rewriter that adds a shadow stack to
x86-64 programs).  The model and the proofs are in `/verif/lean`, in Lean 4.
The properties are listed in `properties.jsonl` (ids `C01` ...), the mapping
from properties to theorem names in `MANIFEST.json`, and the record of seeded
bugs in `seeded/LOG.jsonl`.

Contents: 1 trusted base; 2 what is modelled; 3 modelling decisions;
4 properties; 5 where the code disagrees with its properties;
6 axioms of each theorem.

## 1. Trusted base

* Lean's kernel (4.33.0) and the three standard axioms `propext`,
  `Classical.choice`, `Quot.sound`.  No other axiom is used; there is no
  `sorry`, `native_decide` or `bv_decide`.  Section 6 lists the axioms of each
  claimed theorem.  Theorems proved by evaluation use `decide` or `rfl` inside
  the kernel, and only for closed witnesses, examples, or complete finite tables.
* The correspondence between the Lean definitions and the C++/C/Python text.
  It is by reading.  Each definition cites the file and lines it models.
* The meaning of the x86-64 instructions emitted (section 3.1), and the rules for
  the EVEX prefix in `Evex`.
* Which bytes asmjit writes for an instruction (`Instr.encode`, `Instr.jump` in `MachineCode`), and what these bytes are to the
  processor (`decode`).
* Facts taken from Dyninst as inputs: the control flow graph, edge kinds,
  instruction read/write sets, the abstract location of a write, stack heights,
  register liveness.  The model takes these as arbitrary parameters (so the
  theorems hold whatever Dyninst says), and where a property needs them to be
  right, this is an explicit hypothesis of the theorem.
* What Dyninst does with requests (section 3.6).

## 2. What is modelled and what is not

Modelled, function by function:

| Code | Lean module (under `lean/Verif`) |
|---|---|
| instructions emitted by `src/jit.cc` | `X86` |
| `src/jit.cc`, all functions | `Jit` |
| `src/runtime.c`; what `MemRegionInit` of `src/codegen.cc` generates | `Runtime` |
| `src/codegen.cc` (text and compilation; no other file calls it) | `Codegen` |
| `src/register_utils.h`; `passes.h` 422-529 (red zone, unused registers) | `RegNames` |
| `src/pass_manager.h` summaries | `Summary` |
| `passes.h` 39-107 (call graph) | `Cfg`, `CallGraph` |
| `passes.h` 109-145, 233-363 (size filter, stack heights), 828-864 (unsafe call blocks) | `Local` |
| `passes.h` 379-420 (inter-procedural propagation) | `InterProc` |
| `passes.h` 588-784 (block liveness, moved points) | `BlockLive` |
| `instrument.cc` 1017-1022 (reading the skip list, with the `num_get` of libstdc++) | `SkipList` |
| `pass_manager.h` 341-439 (statistics file, results of passes) | `StatsFile` |
| `src/stack_protector.cc` | `Protector` |
| `script/run_spec.py` (scheduler and its processes) | `Bench` |
| `script/plot.py` (rows, overheads, order; not parsing of numbers and drawing) | `Plot` |
| `script/check_inst.py` (what is done with objdump's output) | `CheckInst` |
| `microbenchmarks/shadow_stack.cc` | `Micro` |
| `passes.h` 531-586 (dead registers at entries and exits; the liveness query is a parameter) | `DeadPass` |
| `passes.h` 786-826 (safe paths) | `SafePaths` |
| `passes.h` 866-914, `instrument.cc` 653-672 (exceptions) | `Exception` |
| the default pass list, `instrument.cc` 968-985, `pass_manager.h` 386-452 | `Pipeline` |
| `instrument.cc` 319-565 (lowering, coalescing) | `Lowering` |
| `instrument.cc` 185-285 (fast path) | `FastPath` |
| `instrument.cc` 86-183, 567-1000 (snippets, choice of strategy, statistics), `parse.cc` (object classification) | `Plan` |
| `cfi.cc`, `parse.cc` 6-26, `instrument.cc` 1008-1049 (from the arguments to the written file) | `ToolMain` |
| `instrument.cc` 903-942 (`GetIFUNCs`, `InstrumentModule`) | `Startup` |
| `instrument.cc` 87-118 (`StackOpSnippet::generate`), `assembler.cc`, asmjit's encodings | `MachineCode` |
| `utils.cc` 115-134, `script/compress.py` | `Tools` |
| `instrument.cc` 477-553 (counters), 1045-1102 (output name, report) | `Report` |
| `passes.h` 147-231, `pass_manager.h` 103-140, `heap.h` 356-374 (component graph and its order) | `CfgPass` |
| `heap.h` 34-231 (abstract locations) | `HeapLoc` |
| `passes.h` 365-377 (heap pass: graph, order and analysis together) | `HeapPass` |
| `runtime.c` 38-81 (thread creation, all threads interleaved) | `Spawn` |
| `heap.h` 234-698 (heap analysis; `passes.h` 365-377 runs it, but it is commented out of the default pass list) | `Heap` |

Specifications, independent of the model's helpers: `SnippetSpec` (push, check,
register snippets), `Thread` (executions of one protected thread), `BlockSpec`
(program instructions and their declared effects), `CallSpec` (call graphs,
reasons for being unsafe), `PathSpec` (walks and events), `Program` (a whole
program under attack), `Threads` (interleaved threads), `Windows` (snippets whose return address others change at any moment), `Image` (programs whose snippets are bytes in memory), `ImageTeam` (the same with threads), `ByteTeam` (protected programs whose threads execute bytes), `ByteCrews` (the same with signal handlers), `WeakMemory` (the same with store buffers), `Signals` (signal handlers), `SignalProgram` (a whole program with exceptions and signal handlers on the machine), `SignalTeam` (the same with several threads), `Refine` (a program and its instrumented version), `RefinePlan` (such a program as a stack of activations with the snippets of the plans), `RefineLive` (programs of instructions, and what is live in them), `RefineTeam` (`Refine` with threads), `RefineTeamPlan` (`RefinePlan` and `RefineLive` with threads), `RefineCores` and `RefineCoresPlan` (both with store buffers), `ImageCores` (bytes in memory, with store buffers), `Futures` (what may happen next), `Ending` (snippets come to an end), `Cost` (how many instructions they execute), `CfPrint` (`src/cf.cc`), `Forever` (endless executions, refusals), `Silence` (their single steps), `Console` (terminals, and what a message should look like; also the messages), `Startup` (what the loader executes before the shadow stack exists), `Family` (processes which fork; flows of control which share a shadow stack), `Machine` (a whole program on the machine), `PlanMachine` (the same with the code of the plans), `Whole` (the instrumented functions as such a program), `Unwind` (such a program with exceptions), `UnwindMachine` (the same on the machine), `Multi` (with several threads), `FullMode` (full mode), `OpenJumps` (edges which the parser does not find), `Objects` (several code objects), `Evex` (what the byte `0x62` is together with the bytes behind it; also the encodings of the instructions which follow it in snippets), `MachineCode` (what a processor does with bytes: decoding and executing), `Slip` (instrumented programs on processors with AVX-512),
`HeapRun` (origins of values in runs), `Strings` (C++ string searches); the meaning of abstract locations (`ALoc.Means`) stands in `HeapLoc`.  The other modules are lemmas (`*Lemmas`,
`Emit`, `Emitted`, `Footprint`, `HeapOrder`, `HeapTerm`, `HeapSound`, `Snippets`, `Witness`, `Concrete`) and, under `Props`, the theorems.

Not modelled: Dyninst itself (decoding, relocation,
writing the binary) and asmjit, but for the encodings of the instructions in snippets; gflags; glog; when `--output` and other options are unusable (what is printed then);
`src/symbolic.cc`,
`src/test*.cc`; timing; the archived directory; rounding of
percentages; exception marks beyond the set of addresses.

## 3. Modelling decisions

### 3.1 Machine

`X86`: sixteen 64-bit registers, a 64-bit flags word (only the status flags are
computed; the other bits are constant after an arithmetic instruction), a gs
base, byte-addressed memory over the full 64-bit address space with
wrap-around, little-endian 4- and 8-byte accesses.  Only the instructions which
`jit.cc` emits exist.  Page permissions are not modelled: a store outside the
shadow region is a store, not a fault.  The embedded byte `0x62` is
modelled as a trap (`SIGILL`).  It is the prefix of EVEX instructions, so this is
right only if the bytes behind it make no valid instruction.  `Evex` specifies
which bytes do, on processors with AVX-512, and C93 says for which snippets the
trap is certain and for which it is not.  All theorems about whole programs
(C45, C79, C80, C86-C90, C92) take the trap for granted: they hold on processors
without AVX-512, and on others only if no check of the program is one of those
found in `C93_slips`.  C94 is about whole programs on such processors.

`MachineCode` goes down to the bytes: `decode` and `executeAt` say what a processor does with them, and
`assemble` which bytes a snippet becomes.  `decode` knows the forms which occur in snippets and nothing else; an execution that
meets anything else does not go on in the model, so C114 also says that this does not happen.  asmjit's choices are assumed to be:
the shortest displacement and immediate, the long form of jumps to labels that are not bound yet, the short form of others, and
`gs:[d]` as an absolute address of 32 bits.  `Placed.run` and `Placed.back`, from which C114 follows, hold for any other choice
as well.  The encodings were compared with those of GNU `as` for all registers and twelve displacements and immediates:
13,378 instructions, no difference but the six forms `sub rax, imm32`, which have a shorter encoding and are not emitted.
The bytes in `Props/MachineCode` were also executed, by a program of our own, on the processor mentioned below: the check
accepts and stops as in the examples, and the attack of `C114_attack` goes through.

The rules in `Evex` are trusted.  They were written from what we know of
the manual, which is not available in the sandbox, and then
corrected by trying encodings on one processor (an Intel Xeon with AVX-512,
including FP16) with a program of our own, so that processor is evidence for them
but not an independent check.  Three rules were wrong at first: length `LL = 3` was
allowed for scalar instructions; bit 2 of the first byte was taken to be reserved,
although it selects further opcode maps; and instructions with a memory operand
were said never to raise SIGILL.  The last error was in a committed version of
`Evex`, whose comparison had left out memory operands and, after the second
correction, the prefix that had shown the difference; an earlier version of this
paragraph called that comparison free of differences on 18,874,368 encodings, of
which only 16,777,216 were distinct.  No theorem used the wrong rule.  Memory
operands and other opcode maps are now `unlisted`, which the theorems about
protection treat as passing over the check.  With these rules all 256 first bytes
were tried with all second and third bytes, the opcodes 58 - 5F, one register and
one memory operand, and one random opcode with a random register operand each:
229,618,432 tries in cases that are not `unlisted`, without a difference.  The
rules were tried in a C transcription; the Lean function was evaluated on 2,000,000
pseudo-random byte sequences (three quarters of them in the listed cases) and agreed
with the transcription on all of them.  In the same way `SkipList.readSkips` was
evaluated on 111,119 strings (all strings of up to five characters over ten
characters, and eight long ones) and agreed with libstdc++.  These are tests, not proofs.  Other
processors, and changes of the prefix by APX and AVX10.2, are not covered.

Control flow is by labels; a snippet falls through when its end is reached.

### 3.2 Undefined behaviour

C++ undefined behaviour and failed `assert`s are a distinct outcome (`none` or
an error constructor), never a default value.  `DCHECK` is an assert in debug
builds and nothing in release builds; we note where that matters.

### 3.3 Sets ordered by pointers

`std::set<Function*>` etc. iterate in an order that depends on addresses.  The
model takes the iteration order as a list, and theorems quantify over all lists.
`std::set<std::string>` iterates lexicographically, which is modelled.

### 3.4 Recursion

Recursive traversals (`VisitFunction`, `countPaths`, `RedirectTransitionEdges`,
`GetReachableBlocks`) are modelled as total functions with a proof that the
fuel or measure given is enough.

### 3.5 Specification side

Each property is stated against a small specification which does not use the
model's helper functions: paths in graphs, reachability, lists of recorded
return addresses, agreement of states outside a footprint.

### 3.6 What Dyninst is assumed to do

* `PatchModifier`/`cloneBlock` copies the outgoing edges of a block; the clone
  starts at the same address.  Blocks shared between functions are not modelled.
* Snippets are inserted with `pushBack`: those at one point run in the order of
  insertion.
* A snippet at a function entry runs once per entry, not on jumps back to the
  entry block; a snippet at a block exit or function exit runs before the last
  instruction of the block if that is a control transfer (so before a call).
* The exit points BPatch shows are the exit blocks PatchAPI shows.
* A point found for an address inside a block runs its snippet before that
  instruction.

### 3.7 Whole programs (`Program`, `Whole`)

* A thread is a stack of activations.  Events are whole blocks, pushes and checks.
  A snippet moved inside a block counts as standing at its beginning (a push) or
  its end (a check); C25-C28, C53, C56 are about the inside of blocks.
* The attacker may replace the stored return address of every activation during
  a block with a dangerous write, and at an unknown call or an unknown jump;
  an unknown call may also call any function of the program.
* Walks do not follow jumps with unknown targets, except in `OpenJumps` (C97): there the code has edges which the
  tool does not see.  They lead to originals of blocks, since nothing changes a table which was not understood.
  Dyninst may treat such functions in ways which are not modelled, such as not to relocate them.
  Without `Unwind` they do not follow exception
  edges either; with it (C86) any number of innermost activations may disappear at any
  moment, and the activation below may
  go on at any edge of its block, also at one to a handler.
* Functions outside `.text` and functions which Dyninst takes not to return have no pushes and
  checks; the latter are taken not to return.
* Functions of other code objects are unknown code, except in `Objects` (C92): there unknown code may call any
  function of any code object, and stubs lead to the functions which the loader has bound their names to.
* Unknown code is itself not instrumented; library functions on the trusted list
  are taken to be harmless.

### 3.8 Whole programs on the machine (`Machine`)

* As 3.7, but pushes and checks execute the code which the emitter returns on the
  machine of 3.1, stored return addresses are words of memory, and what is recorded
  is what the shadow region holds.
* Conditions of the steps, not proved there: everything but the snippets leaves the gs
  base and the shadow region alone (the tool's threat model) and, from push to check,
  the frame register (C23); a snippet addresses the word where the caller put the return
  address (C80); stacks and the bytes below the stack pointer are outside the region;
  the region has room for one more entry (without room: C16).
* The instructions of the program, of libraries and of the attacker are arbitrary
  changes of registers and memory within these conditions.
* In `PlanMachine` a snippet is the code which the emitter returns for a push or check of
  the plan, executed at its place; nothing is assumed about the word it addresses.  Assumed
  instead (`BinaryOk`): Dyninst's heights are right and agree along paths, instructions
  other than push and pop which do not write rsp do not move it, the tables of the summaries
  are what the scans return.

* In `UnwindMachine` unwinding may in addition remove innermost activations; it changes anything but
  the gs base, the shadow region and the return addresses of the remaining activations.
* An address which a check accepts must be that of an activation which there was in this very
  execution (`Trail`: the list of all its states), not just in some execution.
* In `SignalProgram` (C100) there are signals in addition.  Handlers which leave the stored return addresses of
  the program alone may interrupt it anywhere, within snippets also; they are honest threads as in C99.
  Handlers which may do anything are functions of the program, and a signal is a call of the handler between
  two events; the registers of the interrupted function are afterwards what the handler has left.
  Within snippets such handlers are not treated.  Handlers of the first kind may also jump out of a snippet to an
  outer activation (`Disturbed.escape`), but not out of a check if the return address has been overwritten or
  the shadow stack contains values like those of the guard.  If a push is left in this way, its entry may remain
  on the shadow stack, and later checks may accept it (`XCut`; needed: `C100_cut`).
* In `SignalTeam` (C102) there are several threads, and handlers of the first kind are executed instruction by
  instruction, while other threads go on, and may be interrupted themselves.  Threads and handlers leave alone what
  the others rely on: the regions, the stored return addresses and the 16 bytes below the stack pointer of
  interrupted snippets.  Instructions of snippets do so whenever these bytes are not those of other threads
  (`C102_footprint`, `C102_footprint_handler`).

### 3.9 Interleaved threads (`Threads`)

* Threads share memory and interleave instruction by instruction inside snippets;
  memory is sequentially consistent (each byte a thread owns is touched by that
  thread only, so a weaker memory order would show no difference).
* Creating a thread with its region is one step (`pthread_create` runs the wrapper
  which initialises the region before the thread's own code).
* Conditions of the steps, not proved: `malloc` returns memory nobody owns; the
  program's own instructions leave all owned bytes alone; the stack bytes used by
  a snippet belong to no other thread at the time the snippet starts.
* A snippet which checks a return address of 0 may not start (see C04).
* In `RefineTeam` the threads of original and instrumented program may take turns after any instruction.  Threads are
  not created: one which does not exist yet waits at a control point with its shadow region initialised
  (thread creation is in `Spawn`, C14 and C71).  A snippet which is interrupted by other threads belongs to the
  past of the original: this passes it when it is entered.
* In `Image` (C117) the processor executes the bytes of snippets one instruction at a time; the program's own steps are those of
  `Refine`, and do not change the text.  How Dyninst moves the program's own code is not modelled: where the bytes stand is a
  parameter.
* In `ImageTeam` (C118) threads execute the same bytes and take turns after every machine instruction; memory is sequentially
  consistent, as in C108.
* In `ByteTeam` (C119) an instruction which leaves the bytes of a snippet elsewhere than at their end, or bytes which are no
  instruction of a snippet, lead to the state `strayed`, of which nothing is assumed; C119 says that it is not reached.  There
  are no signal handlers; `ByteCrews` (C120) has them, under the conditions of `SignalTeam` (C102), which are stated there in terms
  of what stands at `rip`.
* In `WeakMemory` (C121) each thread sees a memory of its own, and memory is not sequentially consistent: `Caches` asks only that
  a thread sees its own writes.  `Caches.x86` has a store buffer for each thread, from which single bytes get to memory in
  order; fences and locked instructions only exclude some of its executions.  An instruction which reads and writes is one step.
  Instructions are always fetched from the same text.  That writes spare others when they get to memory is a condition of
  `WeakStep`; `AreaStep` asks instead that threads do not write to each other's areas, and nothing of the processor (`C121_areas`).
* In `Console` (C125) what messages are about is given (functions and what becomes of them, counts, percentages as text); nothing else writes to `std::cout` (Dyninst may).
* `CfPrint` (C129) takes for granted what `start()` of the target of an edge without target is; `DCHECK` and the null pointer behind it are not told apart.
* `Forever` (C130) does not relate endless executions which do nothing that the outside world sees; that snippets do not cause
  them is C131, which takes for granted that chains of snippets, one directly behind the other, are finite.
* `Cost` (C128) counts instructions; it says nothing about time, nor about the trampolines of Dyninst.
* `Ending` (C127) says nothing about whether the processor ever executes a thread or empties a buffer.
* In `ImageCores` (C124) instructions are fetched from text which does not change, so buffers do not matter for it.
* In `RefineCores` (C123) the areas of threads do not change.  An instruction reads everything before it writes; its bytes get to memory
  one by one.  Locked instructions and fences wait until the thread's buffer is empty and write to memory at once.  Snippets
  contain neither.  Text does not change.
* In `Codegen` (C122) of the permissions only those to write are modelled, files are known by their names, and symbolic links inside
  the directory are not distinguished from files.  `gcc` reads one file at a time; which texts it accepts is a parameter.
* In `Windows` (C116) one thread executes snippets, and others change memory between any two of its instructions; they
  leave alone the region and the bytes where a snippet saves registers, but not the return address.  An instruction reads its eight
  bytes at once.  What others write is seen at once.
* In `Multi` the threads execute whole programs as in `UnwindMachine`, snippets instruction by
  instruction.  It is a condition of each step that it spares the shadow regions and the stored return
  addresses of other threads and the stack bytes of their running snippets; for instructions of snippets
  it follows from disjointness (`C88_footprint`, and for bytes, signals and store buffers `C119_footprint`,
  `C120_footprint`, `C121_footprint`).  A process ends when one of its threads is killed or
  diverted.

## 4. Properties

For each property: what is modelled, how it is proved.  "Refuted" means the
natural statement is false of the code; then the negation is proved with a
concrete witness and the part that does hold is proved with suffix `_partial`.

| Id | Model | Proof |
|---|---|---|
| C01 | emitted push code run on the machine | symbolic execution of each emitted shape, memory lemmas |
| C02 | same | footprint equality from the same execution |
| C03 | emitted check, loop over shadow memory | induction on the number of entries above the match |
| C04 | same | induction on the depth; the value 0 is an exception, shown separately |
| C05 | same | same induction carrying the footprint |
| C06 | executions of one thread with call, return and unwinding; machine memory | invariant: active return addresses are a sublist of the recorded ones |
| C07 | machine check | refuted by a concrete machine state; partial with non-zero low halves |
| C08 | frame variants of push and check | refuted for all states: every honest return traps |
| C09 | iterator positions of the selection code, with UB outcome | refuted by witness; partial for 0 or at least 4 dead registers |
| C10 | register snippets | execution of push, arbitrary body relation, pop |
| C11 | register pop | reuse of the check loop theorem |
| C12 | emission under dry-run | execution |
| C13 | choice of scratch registers | list reasoning over the register table |
| C14 | initialisers writing memory | execution |
| C15 | threads with disjoint regions, interleaved instructions | footprint of each snippet, ownership invariant over interleavings, projection to a machine with one thread |
| C16 | depth accounting on executions | invariant on pointer bounds; witness for the overflow |
| C17 | both layouts | proved for the runtime, refuted for the generator's layout |
| C18 | depth-first propagation with visited set | refuted on a two-cycle; exact without recursion, by induction |
| C19 | same | invariant of the traversal, all graphs |
| C20 | same shape | refuted; partial: local facts and dichotomy for callees |
| C21 | address arithmetic on 64-bit words | case analysis |
| C22 | offset test against byte ranges | refuted with a 16-byte store; partial with width bound |
| C23 | used/unused register computation | refuted with sil; partial with explicit name table |
| C24 | string function | refuted for four names; complete table; general lemma for numbered registers |
| C25 | backward set computation over an abstract instruction semantics | induction over the block, non-interference |
| C26 | forward scan | invariant linking scan height and machine rsp; refuted after a 16-bit push |
| C27 | backward scan | same; refuted for pop into rsp |
| C28 | scan plus machine snippet | refuted by a concrete block; partial for two free registers |
| C29 | recursive counting with visited edges | both directions by induction on the traversal; bound |
| C30 | block marking | membership reasoning |
| C31 | edge classification | membership reasoning |
| C32 | two-copy graph | simulation in both directions |
| C33 | same with push/check events | invariant: copy reached iff pushed; refuted with conditional tail calls |
| C34 | same | safe prefix never leaves the original copy |
| C35 | coalescing | event trace equality |
| C36 | same with exception edges | refuted by witnesses |
| C37 | lowering decisions and emitted code | refuted with one flag; partial otherwise |
| C38 | recogniser and plan | path induction under the recogniser's conditions; refuted when an exit has successors |
| C39 | plans of all strategies | refuted for the fast path; proved for others |
| C40 | dispatch function | case analysis |
| C41 | dispatch function | refuted; partial |
| C42 | selection functions | case analysis; witness path |
| C43 | counters | induction over writes; refuted without assertions |
| C44 | name sets | refuted; partial with distinct names |
| C45 | whole programs under attack, pass pipeline, plans | inductive invariant relating activations to recorded addresses; refuted by five complete attacks |
| C46 | abstract location merge | normal forms and their meaning; undefined between stack and other locations (exact characterisation, witness) |
| C47 | heap analysis with assertions | invariant on the shape of contexts |
| C48 | getline splitting | list induction |
| C49 | name test | specification by prefix |
| C50 | two loops | list induction |
| C51 | stack height pass | fold invariant, both directions |
| C52 | red zone visitor | case analysis |
| C53 | moved push in its block | non-interference along the block |
| C54 | lowering with assertions compiled out | path induction |
| C55 | push code and dead sets | refuted by running the code; partial |
| C56 | moved points | invariant on scan positions |
| C57 | check code | execution for all states; refuted |
| C58 | pass pipeline | from the invariants of the passes; refuted for tail jumps |
| C59 | whole programs | from C45's invariant; refuted on the fast path |
| C60 | work list of the heap analysis | lexicographic measure over a finite universe of keys, order on contexts; refuted for one-instruction entry blocks with a self edge |
| C61 | heap analysis against runs (`HeapRun`: origins of values) | invariant of the work list: every edge is covered, or waits, or is fresh; abstract step covers concrete step; refuted in three ways |
| C62 | end of the heap analysis | fold invariant; refuted for blocks with other reasons |
| C63 | component graph | invariant of the depth first search relating marked blocks, components and links; refuted for overlapping loops |
| C64 | post order | every grey component reaches the current one; induction over the search |
| C65 | height tables, lowering decisions, emitted code in a block | height invariant of the pass; the offset chosen cancels the pushes (pops) passed over |
| C66 | plans of the other strategies, emitted code in a block | same; both successors of the entry block share its end height |
| C67 | plans | case analysis |
| C68 | plans | case analysis |
| C69 | safe path count and lowering | a positive count gives a path, on which nothing is inserted (C34) |
| C70 | component graph, order and analysis together | C60, C61, C63 and C64 composed; unreachable blocks set apart |
| C71 | thread creation, interleaved | invariant over all threads: who holds which block, what is stored in it, what was called; refuted when malloc fails |
| C72 | thread creation, interleaved | allocated blocks only grow; disjoint regions add up; refuted |
| C73 | one step of the heap analysis | exact characterisations; refuted for `operator new` and for operands after a scaled index |
| C74 | dead register pass, push and check code | fold invariants; composed with C09; refuted by running the code |
| C75 | `--skip_list` | grammar of addresses and of any file, what is read characterised exactly; composed with C40; refuted for all files with a comment |
| C76 | `--stats` | grammar of the file, unambiguous; every file written is in it; only the last object; refuted |
| C77 | `stack_protector.cc` | exact characterisation by induction; refuted for cookies |
| C78 | `run_spec.py` | transition system with invariants, measure and progress; refuted by a full pipe |
| C79 | snippets, shadow region and instrumentation plan together | simulation of C45's abstract program by the machine; refuted without C45's conditions |
| C80 | plans and emitted code together | every planned snippet fits (C65, C66); refinement of C79's machine; refuted without C45's conditions |
| C81 | no failing lookup or assertion | exact for the analysis; instrumentation given heights along edges; refuted at joins of different heights |
| C82 | minimum, median, maximum of overheads | exact |
| C83 | benchmarks in the wanted order | termination exact; refuted in general: an endless loop |
| C84 | microbenchmarks disturb nothing | proved for the two which save registers; refuted for the other two, and for the conditional push, which records nothing |
| C85 | the check of a rewritten binary | sound for readable disassemblies; refuted for unreadable files and newer objdump |
| C86 | C45 with exceptions | invariant: the entries between those of the activations are addresses of abandoned ones; handlers of lowered functions must only clean up; four witnesses |
| C87 | C80 with exceptions | simulation as for C79, of the abstract program of C86; two machine executions as witnesses |
| C88 | C87 with several threads | projection: each thread's history is one of C87, the others' steps being changes of memory outside what it relies on, and a snippet interleaved with them ends as it would alone (C15's footprints); a machine execution as witness |
| C89 | C45, C86, C80, C87 and C88 in full mode | the same invariants with every function of `.text` unsafe; two complete attacks as witnesses |
| C90 | from the loop over code objects to C45 and C89 | induction over code objects, modules and functions |
| C91 | the report at the end | the same induction with exact counts; rational arithmetic; two witnesses |
| C92 | several code objects together | composition of the invariants of the parts; witness run |
| C93 | the byte `0x62` raises SIGILL | case analysis of the epilogues of the snippets against the EVEX rules; exact table for pops; refuted by a general theorem and a complete attack |
| C94 | whole programs with AVX-512 | simulation: without a check that can be passed over, runs are those of C80/C89; refuted by a complete run |
| C95 | what status 0 means | case analysis of `main`; composition with C42, C90, C91; witnesses |
| C96 | what the marks of a summary say | invariant of the depth-first traversal; fields moved through the pipeline; witnesses |
| C97 | jumps whose targets the parser does not find | C45's invariant for the code with the missing edges; two complete attacks |
| C98 | which instructions the embedded byte can become | bit fields against the tables of the manual |
| C99 | signal handlers | invariants for every suffix of a snippet, induction on the nesting of handlers; concrete executions for the four failures |
| C100 | C87 with signal handlers | the invariant of C87 is kept by interrupted snippets, which end as C99 says, with the entries of handlers on top; handlers of the other kind are further calls; three complete attacks as witnesses |
| C101 | from `main` of the tool to executions of its output | composition of C95, C90, C92, C88 and C100; `DoneTo` identifies what the run did to each code object |
| C102 | C88 and C100 together, handlers in execution | every thread of a process makes steps of `Disturbed` with the signals `Among`, in which the steps of other threads are signals; a simulation with one case for each step, where an interrupted handler is a prefix of a run (`HandlerAt`) |
| C103 | bisimulation | states correspond if the program cannot tell them apart (`Blind.Same`), the region holds what the program has announced (`Book`), and the frame register holds the return address while its own value is in the scratch word (`LeafOk`); emitted code by `IsPush.run`, `IsCheck.run`, `IsRegPush.run`, `IsRegPop.run` |
| C104 | invariant, then C103 | the announced return addresses are those of the activations which have pushed and not checked, possibly with those of abandoned ones in between (`GInv`); the order of events from the shapes of the plans (`InOrder`, `built_ordered`), the footprint of the code from `snippets_within` |
| C105 | as C104 | `full_ordered`, `full_within` instead of the lemmas about the plans of light mode |
| C106 | one instruction in two states which agree on what is live has the same outcome and leaves such states (`Loses.both`, `Loses.next`), hence the hypothesis of C103-C105 about what the program looks at | the equations are required of executions of the original only |
| C107 | C106, since registers clobbered at the entry are those which are dead there | the refutation executes the snippet of the plan |
| C108 | simulation: a thread inside of a snippet is on the path of an execution of the snippet alone, from a state which agrees on all that the snippet touches (`Footprint`); what it writes (`FootWrites`) is hidden from all threads | the original passes a site when the instrumented program enters the snippet |
| C109 | each thread as a program with one thread (`threadGuest`), whose books are those of C104 | hence the lemmas of C104 and C105 about plans apply |
| C110 | as C106 | |
| C111 | induction over what the loader executes: the early functions belong to a set which is closed under calls and jumps and executes no snippets | in light mode the set is that of the safe functions (C45) |
| C112 | invariant: recorded addresses contain the calls in progress of the executing process and, as suffixes, of those which wait for it | the memory of a child of `fork` is a copy |
| C113 | invariant: flows which wait have no calls in progress | the refutation executes the default snippets |
| C114 | simulation in both directions between the instructions of a snippet and the processor on its bytes; decoding inverts encoding | `C114_attack` executes bytes |
| C115 | induction over the code; the shapes of the snippets | |
| C116 | simulation with a state that agrees on what the snippet touches apart from the slot of the return address; induction over the entries | the refutation executes the default check |
| C117 | simulation in both directions; in the inserted bytes the processor has no choice | |
| C118 | bisimulation, instruction by instruction, up to labels (which have no bytes); composition with C109 | |
| C119 | simulation of the bytes by the lists, instruction by instruction; paths correspond, so what disappears on one disappears on the other | `C119_refuted_avx`: without the condition a thread gets out of the bytes of a check |
| C120 | the same with handlers; places in the bytes are places in the lists (decoding inverts encoding) | |
| C121 | each thread's history is one of C102 with the memory that it sees; what is passed on does not change what the writer sees | |
| C122 | one run of `Codegen` among others and among other users; invariant: the directory is as the run has left it; refuted for a `umask` of 0, a `/tmp` that is not sticky, full disks and two runs of one user | |
| C123 | simulation; what waits in the buffers is the same but for bytes in the threads' own areas, of which other threads know nothing; before a locked instruction the other program's buffer is emptied; each thread with the buffers and the other threads is a program of C104 | C109 |
| C124 | simulation of the bytes by the lists of instructions, up to labels; an instruction in memory stores where that of the list does | C118, C123 |
| C125 | a terminal reads what streams were given; the base as a state of the stream | – |
| C126 | weak bisimulation: the correspondence of C123 is kept by each step of either, then through the bytes | C123, C124 |
| C127 | the number of instructions left; other threads cannot change the area on which it depends | C126 |
| C128 | counted executions of the loop; the number of recorded addresses as potential | C02, C15 |
| C129 | cases of an edge; three characters tell the lines apart | C31 |
| C130 | the bisimulation of C126, followed forever by dependent choice | C126 |
| C131 | induction on the chain of snippets, the instructions left and the bytes in the buffer | C127 |

## 5. Where the code disagrees with its properties

Each entry: what the code does; the theorem that shows it.

Snippets and runtime:

* The check compares the 32 low bits of an entry with the guard, so a recorded
  address with zero low half ends the search (`C07_guard_confusion`,
  `C07_recorded_but_traps`).  A return address of 0 is accepted because it
  equals the guard (`C04_zero_accepted`).
* A failing check need not raise SIGILL (`C93_slips`, `C93_refuted`).  The byte
  `0x62` is the EVEX prefix.  Where the check is moved in front of the pops of an
  epilogue, the popped registers are its scratch registers, nothing is restored
  after it, and the byte runs together with the pops: with `pop r14; pop r15; ret`
  (and `pop r12; pop r13; ret` and others, `C93_pops`) it is a vector instruction on
  AVX-512 processors, which swallows the pops and the return.  Execution goes on
  behind the return.  If the next function stands there, it records the
  attacker's address and returns to it (`C93_attack`).  A program which meets all
  conditions of C80 has such a run (`C94_refuted`).
* In frame mode every honest return traps (`C08_honest_return_traps`): the push
  and the check do not agree on what is recorded.
* `--optimize_regs` with one to three dead registers steps a set iterator past
  the end (`C09_small_dead_sets_undefined`).
* `Codegen` compiles whatever is in `/tmp/.litecfi_tmp/*.c`, creates that directory with 0777 and looks neither at
  the exit code of `rm` nor at the state of the stream: with a `umask` of 0 other users have their code compiled in
  (`C122_refuted_umask`), and with a full disk or two runs at the same time it returns a library without the
  initialiser (`C122_refuted_full`, `C122_refuted_twice`).
* The layout that `codegen.cc` generates puts the guard word where the snippets
  keep a scratch word (`C17_generated_guard_lost`,
  `C17_generated_accepts_unrecorded`).
* Deep recursion overflows the shadow region without a check (`C16_overflow`).
* Signals.  The push stores the return address before it moves the pointer, so an
  instrumented handler that runs in between overwrites the entry and the
  interrupted function is killed when it returns (`C99_refuted_push`); moving the
  pointer first would avoid this.  The check moves the pointer before it compares,
  also onto the guard, so handlers that run then overwrite the guards and the
  search runs on below them, to the word where frame registers are saved: an
  address which nobody recorded is accepted (`C99_refuted_guard`).  This word is one
  per thread, so a register-frame function that is interrupted by a handler with
  another one gives its caller its own return address in the frame register
  (`C99_refuted_register`).  A handler that jumps (`siglongjmp`) back into a function
  whose check is in progress leaves it without an entry, and it is killed when it
  returns in the end (`C99_refuted_jump`).
  The analysis does not know about signals: a function is left alone if it and its callees overwrite nothing, but a
  handler may overwrite its return address (`C100_refuted_safe`); a handler which runs before the push of a
  function may have its own value recorded (`C100_refuted_early`); and the frame register is saved in memory
  while a handler runs (`C100_refuted_register`).
* `InstrumentModule` collects the addresses of the resolvers of indirect functions, and does nothing with
  them (`C111_ifuncs_ignored`).  Resolvers run before the constructor which sets up the shadow stack; an instrumented one
  stores through the gs base 0.  The same holds for the functions of `DT_PREINIT_ARRAY` and for a `malloc` of the program,
  which the constructor calls (`C111_refuted`, `C111_full_refuted`, `C111_push_stores`).
* Flows of control which are not made by `pthread_create` share the shadow stack of their maker.  If two of them pass control
  to each other while calls are in progress, an honest return is killed (`C113_refuted`).
* A check and the return instruction read the return address separately, and so do the call and the push.  Another thread that
  writes between the two reads is not noticed (`C116_refuted_check`, `C116_refuted_push`, `C116_refuted_register`; every snippet has these windows,
  `C116_window_check`, `C116_window_push`).
* `InstrumentInitFunction` and the variable `is_init` (`instrument.cc:887-900`, `997-1003`) are not used.
* Errors of the assembler are printed and ignored (`assembler.cc:5-12`); an instruction with an error would be missing in
  the snippet (`C115_needed`).  No snippet has one (C115).  `generate` relocates the code to a buffer from which it is then copied
  elsewhere; this is harmless only since the bytes do not depend on the address (`generate`, C114).  The buffer is never freed.
* The runtime never releases the 8 MiB region nor the 16 byte request of a thread
  that has ended (`C72_refuted_witness`, `C72_refuted_all`, `C72_limit`), and
  stores through the result of `malloc` unchecked (`C71_refuted`).
* Every check that falls through sets ZF, so a conditional tail jump behind it
  goes the wrong way (`C57_refuted`).
* `JitStackPush` with a null summary ignores the height it is given.
* `dead_at_exit` is keyed by the end of a block but looked up by the address of
  the point; exit blocks that end at one address share an entry
  (`C74_refuted_overlap`).  It describes the end of the block, but the check runs
  before the last instruction, so that with `--optimize_regs` the check before
  `jmp *%r11` changes `r11` (`C74_refuted_jump`).  With `--optimize_regs` a function
  with five arguments makes the emitter run past the end of a set
  (`C74_refuted_few`).

Analyses:

* Recursion: a function visited while its caller is in progress is judged before
  its callees are known (`C18_refuted`), and is then left without protection
  (`C45_refuted_recursion`).
* Tail jumps are not recorded as calls: a function that jumps to an unsafe one is
  judged safe, and so are its callers (`C58_refuted`, `C45_refuted_tail`).  The
  same holds for jumps to library stubs, and for indirect tail calls.
* The exception pass judges an already visited callee by its write flag
  (`C20_refuted`).
* The width of a store is ignored (`C22_refuted`, `C22_refuted_unaligned`).
* `sil`, `dil`, `bpl`, `spl` are not recognised (`C24_refuted`), so `rsi` etc. can be
  called unused while they are used (`C23_refuted`).
* The red zone visitor looks only at operands based on `rsp` (`C52_other_register`).
* The entry scan counts every push as 8 bytes (`C26_refuted`); the exit scan
  passes over `pop rsp` (`C27_refuted`); both miss writes to `esp` and `sp`.
* A moved check with one dead register saves below `rsp` and clobbers the red
  zone (`C28_refuted`).
* `countPaths` drops what it has counted at an indirect edge (`C29_indirect_lost`).
* Large functions are not given heights and their unsafe blocks hold only call blocks;
  lowering then rejects them because the heights are missing.
* `StackHeightAnalysis::IsSafeFunction` tests `!unknown_writes.empty()`, which looks
  inverted; it has no effect because it is not the last pass.
* `plt_calls` is keyed by the last instruction of the block; a CALL edge to a block
  at which no function starts is recorded nowhere.

* Merging a stack location with another kind of location is undefined: the code
  logs an error and keeps the left side, so the result misses the right side and
  depends on the order (`C46_refuted`).  The analysis never gets there
  (`C47_never`).
* A null `points_to` and one to TOP mean the same, but `operator==` tells them
  apart (`C46_comparison_finer`).
* The heap analysis does not end on a function whose entry block is one
  instruction that changes an argument register and jumps to itself, like
  `f: loop f` (`C60_refuted`).
* The heap analysis starts with an empty work list after the first instruction of
  the entry block if that instruction changes no fact (`endbr64`, `test`, `push`
  of a register with no fact): later blocks are analysed as if nothing were known
  to be anything, and HEAP is reported for other addresses (`C61_refuted_idle`).
  Values it has no location for (caller's registers and stack words, `rsp`, stored
  constants) are BOTTOM, which merges to whatever comes from the other side, so a
  write into the frame can be reported as HEAP (`C61_refuted_frame`).  Facts about
  stack words survive all writes except `mov` at a known height
  (`C61_refuted_stale`).
* `moveDownSP` is computed but never read.
* Only `malloc` and `operator new[]` (`_Zna`) are taken for allocators; what
  `operator new` (`_Znw`), `calloc` and `realloc` return is TOP (`C73_refuted`).
* The operand visitor is reset only in part between operands: after `(,%rdx,8)` a
  register operand is not seen (`C73_second_operand_lost`).
* The heap pass takes the unsafe mark from a block whose unknown writes all go to
  the heap, although the block may be marked for another reason, such as a call of
  an unsafe function or a write to the return address (`C62_refuted`).  Removing
  part of the addresses of a block has no effect, because the loop variable is a
  copy (`C62_unknown_writes`).
* With overlapping outer loops (irreducible graphs) a block is in two components
  (`C63_refuted`).

Instrumentation:

* Lowering skips CATCH edges (`C36_refuted`), so that a lowered function which catches an
  exception returns without a check (`C86_refuted_handlers`, a complete attack).
* The unwinder reads return addresses from the stack and nothing checks them
  (`C86_refuted_unwinding`); entries of abandoned activations remain on the shadow stack and are
  accepted (`C86_refuted_stale`).  They are all that is accepted besides zero and the addresses of activations
  which are between push and check: addresses of activations which have returned are not
  (`UProtected.accepted`, likewise for C87, C88, C89, C92 and C100).
* Functions judged safe, and calls before their push or after their check, are exposed to the other
  threads of the process, which can overwrite their return addresses at their own dangerous moments
  (`C88_cross`, `C88_refuted_cross`).
* Where paths of different stack heights meet in an unsafe block, lowering puts the push
  at the beginning of the block, whose height is unknown: the assertion at
  instrument.cc:503 fails (`C81_refuted`), and without assertions `operator[]` inserts
  height 0.
* Lowering refuses functions with jumps through tables which Dyninst understands (`has_indirect_cf`,
  `instrument.cc:436`), but not functions with jumps it does not understand, although these lead past the
  pushes; nor does the fast path (`C97_refuted_lowering`, `C97_refuted_fast`).
* Exit blocks which also have a successor in the function (conditional tail
  calls) get a check and go on (`C33_refuted`).  At the next check the program is killed although nothing was
  overwritten (`C105_refuted_conditional`).
* The calls that redirect edges are inside `assert` and vanish with `NDEBUG`
  (`C54_no_assertions`).
* The red zone test of lowering looks only at push edges and is bypassed by
  `--disable_reg_save_opt` (`C37_refuted`).
* Pushes at places other than the function entry use the registers dead at the
  function entry (`C55_refuted`).  A whole program which behaves differently with `--optimize_regs`:
  `C107_refuted`.
* The fast path instruments calls of non-returning functions (`C39_refuted`), can
  list a block twice (`C38_refuted`), and checks before a call which ends a slow
  exit block (`C59_refuted`, `C45_refuted_fastPath`).  A check before a call which does not return assumes
  that the stack pointer is at the return address: if the block has a frame the program is killed although
  nothing was overwritten (`C104_refuted_nonreturning`).
* `--disable_sfe` also disables the skip list, and full mode ignores it
  (`C41_refuted`).  Functions outside `.text` and those on the skip list are left without
  protection, whether they write unsafely or not (`C45_refuted_section`, `C45_refuted_skip`), the former in full mode too (`C89_refuted_section`).
  Library functions are trusted by name, also if an instrumented library defines them (`C92_refuted`).
  The report calls the functions of the skip list safe, and prints percentages which are not numbers if
  no function was treated and, for writes, always in full mode (`C91_refuted_safe`, `C91_refuted_nan`,
  `C91_full`).
  Even in full mode a function which ends by a jump to an unknown place is checked before the jump only
  (`C89_refuted_jump`).  Reading the list stops silently at the first word that is not
  an address or does not fit (`C75_refuted_stops`, `C75_refuted_big`).
* Every code object truncates the statistics file (`C76_refuted_objects`);
  `RunPass` assigns a `long` to a string, which keeps one character
  (`C76_refuted_result`).
* `stack_protector.cc` takes any use of thread-local storage in the first block of a
  function for a stack cookie and sees no other block (`C77_refuted`).
* `run_spec.py` reads the output of a process only after it has ended, and so waits
  for ever for a process that fills a pipe (`C78_refuted_stuck`).
* `.so` anywhere in a path makes an object a shared library (`C42_refuted`, `C95_refuted_nothing`).
* The comment on `FuncSummary::assume_unsafe` (`pass_manager.h:167-176`) says that library calls and unknown
  control flow set it; only large functions do (`C96_never_assumed`).  `tests/analysis_test.cc` expects it for
  `indirect_call` and `plt_call`, and at the same time expects it not to be passed on to the callers, which no
  run can give (`C96_passed_on`, `C96_refuted_tests`).  It also uses classes and a field which no longer exist.
* `main` uses `argv[1]` without looking whether there is one, and `InitParser` uses a null pointer if the
  file cannot be opened (`C95_refuted_argument`).  A failed `writeFile` and a skip list which cannot be
  read are not noticed; the status is 0 (`C95_refuted_written`, `C95_refuted_skip_list`).
* Without assertions `CountMemoryWrites` can report negative counts
  (`C43_refuted`); the safe count goes by distinct names (`C44_refuted`).
* `std::hex` is never undone before the report, so with `--vv` the counts of the analyses of later code objects are
  printed in hexadecimal without `0x` (`C125_refuted_decimal`).
* `cf` announces indirect tail calls as unknown control flow and jumps to library functions as calls, unlike the analysis,
  and says nothing about tail jumps; it dies without an argument or a function `foo` (`C129_refuted_agree`, `C129_run`).
* `MoveInstrumentation` does not test the point it finds for null.
* `GetFileNameFromPath("")` and `cfi` without arguments are undefined behaviour;
  the compression script divides by zero on an empty trace.
* `plot.py` loops for ever if a benchmark of the wanted list is missing while the number
  of benchmarks is right (`C83_refuted`).
* The microbenchmarks without context saving do not declare that they change rax and rcx
  (`C84_refuted`); because of `addq $0` and `subq $0` the pop benchmarks compare the return
  address with the pointer to the area and not with an entry (`C84_pop`).  The conditional push jumps over the
  push or traps, but never pushes (`C84_refuted_conditional`).
* `check_inst.py` reports nothing for a file that objdump cannot read, since it looks for
  the word `error` after the first character of the output, and everything for versions of
  objdump which print `jmp` (`C85_refuted_unreadable`, `C85_refuted_jmp`); in a disassembly without a
  `.dyninstInst` section it looks only at the last character (`C85_refuted_section`).

## 6. Axioms of each claimed theorem

As printed by `#print axioms`.

Axioms: none

`C14_init_failure`, `C22_refuted`, `C22_refuted_unaligned`, `C28_two_dead`, `C44_refuted`, `C46_refuted`, `C73_first_operand`, `C76_refuted_result`, `C121_x86_writes`, `C122_meaning`

Axioms: propext

`C09_refuted_unknown_name`, `C13_move_scratch_distinct`, `C24_table_partial`, `C24_refuted`, `C24_no_merge`, `C52_rsp`, `C52_other_register`, `parity_ones`, `C50_compressed`, `C50_windowed`, `C50_windowed_faithful`, `C50_windowed_not_idempotent`, `C50_ratio`, `stretch_unique`, `C46_undefined_iff`, `C62_rest`, `C73_second_operand`, `C73_second_operand_lost`, `C73_moves_checked`, `C76_result`, `C93_first`, `C93_pop_low`, `C106_respects`, `C110_respects`, `C121_x86_passes`

Axioms: propext, Classical.choice, Quot.sound

`C01_push_records`, `C02_push_transparent`, `C03_check_accepts`, `C04_check_traps`, `C04_zero_accepted`, `C05_check_transparent`, `C07_guard_confusion`, `C07_recorded_but_traps`, `C07_guard_distinguished_partial`, `C08_frame_check_traps`, `C08_honest_return_traps`, `C09_scratch_selection_partial`, `C11_register_frame_detects`, `C11_recorded_accepted`, `C12_only_save_push`, `C12_only_save_pop`, `C12_only_save_register`, `C06_no_false_alarm`, `C06_return_passes`, `C06_leaf_return_passes`, `C14_init_empty`, `C14_empty_check_traps`, `C14_generated`, `C16_depth_bound`, `C16_capacity_usable`, `C16_writes_inside`, `C16_overflow`, `C16_generated_overflow`, `C17_runtime_layout`, `C17_generated_guard_lost`, `C17_generated_accepts_unrecorded`, `C18_safe_reaches_no_reason_partial`, `C18_visited_first_partial`, `C18_refuted`, `C49_untrusted_never_safe`, `C19_unsafe_has_reason`, `C20_refuted`, `C20_marked_blocks`, `C31_each_call`, `cgRun_total`, `C49_trusted_iff`, `C21_exact`, `C21_never_safe`, `C23_unused_partial`, `C23_refuted`, `C23_skipped`, `C26_entry_position`, `C26_entry_return_address_partial`, `C26_entry_best`, `C27_exit_position`, `C27_exit_return_address_partial`, `C27_exit_best`, `C28_moved_check_partial`, `C29_total`, `C30_unsafe_call_blocks`, `C30_unmarked_calls_safe`, `C51_safe_no_dangerous`, `C52_recorded`, `C52_moves_down`, `C53_moved_push`, `C33_lowering_total`, `C37_red_zone_partial`, `C38_fast_path_partial`, `C38_branches`, `C40_totals`, `C42_scope_partial`, `C42_each`, `C42_refuted`, `C43_write_statistics_partial`, `C43_refuted`, `C44_safe_statistics_partial`, `C55_clobber_partial`, `C56_push_before_check`, `C57_check_sets_zf`, `cmpFlags_bits`, `addFlags_bits`, `C50_share`, `C45_protected_partial`, `C45_refuted_recursion`, `C45_refuted_tail`, `C45_refuted_fastPath`, `C45_refuted_section`, `C45_refuted_skip`, `C58_safe_calls_safe_partial`, `C58_refuted`, `C59_danger_between_partial`, `C59_refuted`, `C15_own_history`, `C15_snippet_as_alone`, `C15_finishes_as_alone`, `C15_killed_as_alone`, `C15_progress`, `C15_solo`, `C46_upper_bound`, `C46_commutative`, `C46_associative`, `C46_idempotent`, `C46_least`, `C46_comparison_finer`, `C47_never`, `C47_shapes`, `C47_contexts_exist`, `C60_terminates_partial`, `C60_no_endless_run_partial`, `C60_unique`, `C60_refuted`, `C61_writes_partial`, `C61_refuted_idle`, `C61_refuted_frame`, `C61_refuted_stale`, `C62_marks`, `C62_unknown_writes`, `C62_reported`, `C62_keeps_partial`, `C62_refuted`, `C63_total`, `C63_refuted`, `C64_covers`, `C65_heights`, `C65_edge_push`, `C65_block_push_partial`, `C65_check_partial`, `C66_push_partial`, `C66_check_partial`, `C66_fast_path_heights`, `C70_finishes`, `C70_shape`, `C70_writes_partial`, `C71_called_once`, `C71_empty_at_call`, `C71_disjoint`, `C71_region`, `C72_kept_partial`, `C72_refuted_witness`, `C72_refuted_all`, `C72_limit`, `C73_call_result_partial`, `C73_call_rest`, `C73_refuted`, `C74_dead`, `C74_filtered`, `C74_exit_partial`, `C74_refuted_overlap`, `C74_push_partial`, `C74_refuted_few`, `C74_refuted_jump`, `C75_file_partial`, `C75_skips_partial`, `C75_refuted_stops`, `C75_refuted_big`, `C75_refuted`, `C75_refuted_instrumented`, `getHex_iff`, `C75_reads`, `C75_skips`, `C76_unambiguous`, `C76_written_partial`, `C76_refuted_names`, `C76_last`, `C76_refuted_objects`, `C76_listed_partial`, `C77_list`, `C77_ratio`, `C77_protected_partial`, `C77_refuted`, `C77_refuted_ratio`, `C78_parallel`, `C78_results`, `C78_table`, `C78_finite`, `C78_progress_partial`, `C78_refuted_stuck`, `C78_refuted_verdict`, `C79_machine_partial`, `Sound.machine`, `XInv.step`, `C79_refuted`, `C80_pushes`, `C80_checks`, `C80_planned_partial`, `snippets_fit`, `C80_refuted`, `C81_analysis`, `C81_instrument_partial`, `C81_builds_partial`, `C81_refuted`, `C82_stats`, `C82_bars`, `C82_rows`, `C82_no_rows`, `plotOverheads_spec`, `overhead_pos`, `C83_ends`, `C83_refuted`, `C85_sound`, `C85_complaints`, `C85_short`, `C85_text`, `C85_no_text`, `C85_failed`, `C85_refuted_section`, `C85_refuted_unreadable`, `C85_refuted_jmp`, `C85_refuted_newline`, `C86_protected_partial`, `C86_refuted_unwinding`, `C86_refuted_stale`, `C86_refuted_handlers`, `C86_refuted_alarm`, `C87_planned_partial`, `C87_refuted_unwinding`, `C87_refuted_stale`, `C88_threads_partial`, `C88_footprint`, `C88_refuted_cross`, `C89_protected_partial`, `C89_exceptions_partial`, `C89_machine_partial`, `C89_threads_partial`, `C89_snippets`, `C89_refuted_section`, `C89_refuted_jump`, `C90_protected_partial`, `C90_done`, `C90_object`, `C90_light`, `C90_full`, `C91_counts`, `C91_functions`, `C91_writes`, `C91_lowering`, `C91_sites`, `C91_dead_sites`, `C91_output`, `C91_full`, `C91_refuted_nan`, `C91_refuted_safe`, `C92_protected_partial`, `C92_threads_partial`, `C92_signals_partial`, `C92_run_partial`, `C92_full_partial`, `C92_refuted`, `C93_slips`, `C93_refuted`, `C94_full_partial`, `C94_protected_partial`, `C94_unmoved_partial`, `goodProg_bare`, `C94_refuted`, `C94_never_stops`, `C95_mode`, `C95_treated`, `C95_rest`, `C95_written`, `C95_protected_partial`, `C95_threat_model`, `C95_refuted_argument`, `C95_refuted_written`, `C95_refuted_skip_list`, `C95_refuted_nothing`, `C96_assumed_only`, `C96_assumed`, `C96_child`, `C96_self`, `C96_unknown`, `C96_verdict`, `C96_never_assumed`, `C96_passed_on`, `C96_refuted_tests`, `C96_refuted_recursion`, `C97_protected_partial`, `C97_exceptions_partial`, `C97_threads_partial`, `C97_full_partial`, `C97_disabled`, `C97_refuted_lowering`, `C97_refuted_fast`, `C98_vector`, `C98_unlisted`, `C99_no_false_alarm_partial`, `C99_recorded_partial`, `C99_push_transparent_partial`, `C99_check_partial`, `C99_register_partial`, `C99_embeds`, `C99_any_handler`, `C99_any_jump`, `C99_refuted_push`, `C99_refuted_guard`, `C100_signals_partial`, `C100_cut`, `C100_refuted_safe`, `C100_refuted_early`, `C100_refuted_register`, `C101_main_partial`, `C101_threads_partial`, `C101_signals_partial`, `C102_signals_partial`, `C102_run_partial`, `C102_main_partial`, `C102_footprint`, `C102_footprint_handler`, `C92_crews_partial`, `C103_same_behaviour`, `C103_example`, `C104_same_behaviour_partial`, `C104_unwinding_partial`, `C104_example`, `C104_example_unwinding`, `C104_refuted_nonreturning`, `C105_same_behaviour_partial`, `C105_unwinding_partial`, `C105_example`, `C105_example_unwinding`, `C105_refuted_conditional`, `C106_light_partial`, `C106_full_partial`, `C106_example`, `C107_optimized_partial`, `C107_refuted`, `C107_example`, `C108_same_behaviour`, `C109_example`, `C109_light_partial`, `C109_unwinding_partial`, `C109_full_partial`, `C109_full_unwinding_partial`, `C109_refuted_nonreturning`, `C110_light_partial`, `C110_full_partial`, `C110_example`, `C111_light_partial`, `C111_skipped_partial`, `C111_full_refuted`, `C111_refuted`, `C111_push_stores`, `C111_example`, `C112_no_false_alarm`, `C112_return_passes`, `C112_detects`, `C112_example`, `C112_refuted_returning`, `C113_no_false_alarm_partial`, `C113_refuted`, `C113_example`, `C114_machine_code`, `C114_push`, `C114_check`, `C114_registerPush`, `C114_registerPop`, `C114_slips`, `C114_attack`, `C115_stackPush`, `C115_stackPop`, `C115_registerPush`, `C115_registerPop`, `C116_check_partial`, `C116_push_partial`, `C116_run_partial`, `C116_return_partial`, `C116_registerPush_partial`, `C116_registerPop_partial`, `C116_leafReturn_partial`, `C116_window_check`, `C116_window_push`, `C116_refuted_push`, `C117_same_behaviour`, `C117_same_runs`, `C117_image`, `C117_example`, `C118_same_behaviour`, `C118_same_runs`, `C118_example`, `C119_bytes`, `C119_refuted_avx`, `C119_run_partial`, `C119_main_partial`, `C119_footprint`, `C119_spares`, `C119_example`, `C120_bytes`, `C120_poised`, `C120_push_places`, `C120_run_partial`, `C120_main_partial`, `C120_footprint`, `C120_spares`, `C120_example`, `C121_weak_partial`, `C92_weak_partial`, `C121_run_partial`, `C121_main_partial`, `C121_footprint`, `C121_areas_example`, `C121_example`, `C122_genuine_partial`, `C122_result`, `C122_blocked`, `C122_locked`, `C122_refuted_umask`, `C122_refuted_sticky`, `C122_refuted_full`, `C122_refuted_twice`, `C123_same_behaviour`, `C123_respects`, `C123_light_partial`, `C123_unwinding_partial`, `C123_full_partial`, `C123_full_unwinding_partial`, `C123_example`, `C124_same_behaviour`, `C124_same_runs`, `C124_example`, `C125_exact`, `C125_report`, `C125_quiet`, `C125_decimal_partial`, `C125_refuted_decimal`, `C125_example`, `C126_bisimilar`, `C126_lists`, `C126_example`, `C127_ends`, `C127_example`, `C128_push`, `C128_check`, `C128_alarm`, `C128_fallback`, `C128_most`, `C128_total`, `C128_tight`, `C128_example`, `C129_lines`, `C129_run`, `C129_example`, `C129_refuted_agree`, `C130_forever`, `C130_await`, `C130_example`, `C131_rests`, `C131_heard`, `C131_endless`, `C131_example`

Axioms: propext, Quot.sound

`C08_frame_push_partial`, `C09_small_dead_sets_undefined`, `C09_saves`, `C10_register_frame_round_trip`, `C12_empty_emits_nothing`, `C13_default_scratch_distinct`, `C20_exception_free_partial`, `C20_addresses`, `C31_calls_recorded`, `C31_tail_jump`, `C22_stack_write_partial`, `C24_numbered`, `C24_numbered_two`, `C24_idempotent`, `C24_throws`, `C25_dead_registers`, `C26_refuted`, `C27_refuted`, `C28_refuted`, `C29_positive`, `C29_complete`, `C29_bound`, `C29_indirect_lost`, `C51_unsafe_blocks`, `C51_function`, `C51_writes`, `C32_project`, `C32_lift`, `C33_lowering_partial`, `C33_refuted`, `C54_no_assertions`, `C34_safe_paths_free`, `C35_coalescing`, `C36_refuted`, `C36_exceptions_partial`, `C37_register_frame`, `C37_refuted`, `C38_refuted`, `C39_nonreturning_partial`, `C39_refuted`, `C40_strategy`, `C40_order`, `C41_skip_list_partial`, `C41_refuted`, `C43_counts`, `C43_stops`, `C55_refuted`, `C57_register_check_sets_zf`, `C57_refuted`, `C48_split`, `C48_file_name`, `C50_faithful`, `C63_partition`, `C63_root`, `C63_components`, `C63_edges`, `C63_returns`, `C64_all_once`, `C64_order`, `C67_lowered_kinds`, `C67_plan_kinds`, `C68_flags`, `C69_lowering_helps`, `C71_refuted`, `C72_never_freed`, `C73_init`, `C73_preds`, `C73_merges_checked`, `C75_negative`, `C78_keys`, `EStep.refines`, `C83_sorted_partial`, `C84_init`, `C84_push`, `C84_pop`, `C84_loop_partial`, `C84_refuted`, `C84_refuted_conditional`, `C84_conditional_flags`, `C84_refuted_conditional_loop`, `C85_parse`, `C85_address`, `C88_cross`, `C93_stack_partial`, `C93_full`, `C93_register`, `C93_pops`, `C93_attack`, `EProtected.onAvx`, `C95_dry_run`, `C98_encodings`, `arithRow_lines`, `C99_nesting`, `C99_refuted_jump`, `C99_refuted_register`, `C103_refuted_flags`, `C103_refuted_red_zone`, `C103_refuted_moved`, `pair_runs`, `C111_ifuncs`, `C111_ifuncs_ignored`, `C115_needed`, `C116_refuted_check`, `C116_refuted_register`, `rec_undefined`, `C121_direct`, `C121_areas`, `C121_areas_safe`, `C122_text`, `note_waits`, `Seated.stores`, `C126_futures`, `C128_register`, `C129_calls`, `C129_unknown`, `C129_plt_partial`, `C129_indirect`, `C130_refuses`, `C130_complete`
