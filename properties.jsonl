{"id": "C01", "title": "Entry snippet records the return address", "statement": "Running the code emitted for a stack push stores the 8-byte return address found at its program-stack location into the slot the thread's shadow pointer (gs:0) designates, and advances the shadow pointer by exactly 8; no other shadow slot changes.", "quantifier": "for every machine state (registers, flags, memory, gs base), every stack height, every admissible choice of scratch registers and every move descriptor, provided the program stack, the gs words and the shadow slot do not overlap", "why_tests_cant": "the emitted code depends on the combination of saved registers and offset, and its effect depends on 2^64-sized values; a test runs a few binaries on one layout", "anchors": ["src/jit.cc:JitStackPush", "src/jit.cc:SaveRa", "src/jit.cc:SaveTempRegisters", "src/jit.cc:UseSpecifiedRegisters", "src/jit.cc:RestoreTempRegisters"]}
{"id": "C02", "title": "Entry snippet is transparent to the program", "statement": "After a stack push snippet every general-purpose register except those declared dead, the stack pointer, the arithmetic flags and every byte of memory outside {shadow slot, shadow pointer word, the words just below rsp used for saving} hold their old values.", "quantifier": "for every machine state, height, scratch choice and move descriptor", "why_tests_cant": "transparency is a statement about every register and every byte of memory for every starting state", "anchors": ["src/jit.cc:JitStackPush", "src/jit.cc:SaveRa", "src/jit.cc:RestoreTempRegisters"]}
{"id": "C03", "title": "Exit check accepts a recorded return address", "statement": "If the return address about to be used equals some recorded shadow entry, and no entry above it looks like the guard (low 32 bits zero), the check falls through and leaves the shadow pointer at the topmost matching entry.", "quantifier": "for every machine state, every shadow stack depth and content, every scratch choice", "why_tests_cant": "the check is an unbounded loop over the shadow stack; tests only exercise matches at depth one", "anchors": ["src/jit.cc:JitStackPop", "src/jit.cc:ValidateRa"]}
{"id": "C04", "title": "Exit check stops an unrecorded return address", "statement": "If the return address about to be used is not zero and equals no recorded shadow entry, the check raises SIGILL and never falls through. (Without 'not zero' the claim is false: a zeroed return address matches the guard word.)", "quantifier": "for every machine state, every shadow depth and content, every tampered value", "why_tests_cant": "a negative property about all attacker-chosen values and all depths", "anchors": ["src/jit.cc:ValidateRa", "src/runtime.c:__shadow_guard_init_stack"]}
{"id": "C05", "title": "Exit check is transparent apart from flags", "statement": "When the check passes, every general-purpose register except those declared dead, the stack pointer and every byte of memory outside {shadow pointer word, save words below rsp} hold their old values; only the arithmetic flags may differ.", "quantifier": "for every machine state, scratch choice, move descriptor, any number of loop iterations", "why_tests_cant": "quantifies over all registers, all memory and loop counts", "anchors": ["src/jit.cc:JitStackPop", "src/jit.cc:ValidateRa", "src/jit.cc:RestoreTempRegisters"]}
{"id": "C06", "title": "No false alarm on honest programs, including longjmp and exceptions", "statement": "A program whose functions return to the address they were called from, and which may at any time abandon any number of frames (longjmp, exception unwinding), never raises SIGILL at a check, as long as no recorded return address has its low 32 bits all zero.", "quantifier": "for every finite history of calls, returns and unwindings of any nesting depth", "why_tests_cant": "an infinite family of histories; recursion plus unwinding leaves stale duplicate entries which tests do not enumerate", "anchors": ["src/jit.cc:SaveRa", "src/jit.cc:ValidateRa", "src/runtime.c:__shadow_guard_init_stack"]}
{"id": "C07", "title": "Return addresses that are multiples of 4 GiB are handled", "statement": "The checker distinguishes recorded entries from the guard for every possible return address. (False of the code: the guard test looks at 32 bits only, so an honest unwinding past an entry with zero low half raises SIGILL.)", "quantifier": "for every recorded return address", "why_tests_cant": "needs a return address at an exact multiple of 2^32, which never appears in a test binary", "anchors": ["src/jit.cc:ValidateRa", "src/jit.cc:ValidateRaAndFrame"]}
{"id": "C08", "title": "Frame validation mode accepts honest returns", "statement": "With --validate_frame an honest call and return passes the check. (False of the code: flags are pushed after the offset is fixed, so the saved word is not the return address and the recorded frame never equals the compared one.)", "quantifier": "for every machine state, every scratch choice, every shadow content", "why_tests_cant": "the failure is a relation between two code sequences emitted at different places and holds for every state", "anchors": ["src/jit.cc:SaveRaAndFrame", "src/jit.cc:ValidateRaAndFrame", "src/jit.cc:TempRegisters"]}
{"id": "C09", "title": "Scratch register selection under --optimize_regs is defined", "statement": "For every set of dead registers the emitter picks scratch registers without undefined behaviour and restores exactly what it saved. (False: sets of one to three dead registers dereference the end iterator; proved for the empty set and for sets of at least four.)", "quantifier": "for every finite set of dead register names", "why_tests_cant": "undefined behaviour may appear to work; the set size space is not enumerated by tests", "anchors": ["src/jit.cc:SaveTempRegisters", "src/jit.cc:SaveOrSkip"]}
{"id": "C10", "title": "Register frame round trip", "statement": "For a leaf function using the register frame, the entry snippet followed by any body that leaves the chosen register and the scratch word alone, followed by the exit snippet, restores the chosen register, passes when the return address is unchanged and leaves the shadow pointer unchanged.", "quantifier": "for every machine state, every chosen register, every body respecting the frame, every height", "why_tests_cant": "quantifies over all bodies and all states", "anchors": ["src/jit.cc:JitRegisterPush", "src/jit.cc:JitRegisterPop", "src/jit.cc:GetUnusedRegister"]}
{"id": "C11", "title": "Register frame detects a tampered return address", "statement": "When the return address of a register-frame function was changed, the exit snippet raises SIGILL unless the new value is zero or one of the return addresses recorded on the shadow stack by functions still active.", "quantifier": "for every machine state, shadow content and tampered value", "why_tests_cant": "negative property over all attacker values", "anchors": ["src/jit.cc:JitRegisterPop", "src/jit.cc:ValidateRa"]}
{"id": "C12", "title": "Dry-run modes add no checking and no state change", "statement": "--dry_run=empty emits no code; --dry_run=only-save emits code whose net effect preserves every register, the flags, rsp and all memory except the save words (stack snippets) or the scratch word (register snippets), and never traps.", "quantifier": "for every machine state and every choice of scratch registers", "why_tests_cant": "net effect for all states", "anchors": ["src/jit.cc:JitStackPush", "src/jit.cc:JitStackPop", "src/jit.cc:JitRegisterPush", "src/jit.cc:JitRegisterPop"]}
{"id": "C13", "title": "Scratch registers are two distinct general registers, never rsp, never excluded", "statement": "Whatever is excluded (at most the thirteen others), the two scratch registers chosen by default are distinct, differ from rsp and are not in the exclusion set; with a move descriptor the second one differs from the first.", "quantifier": "for every exclusion set leaving two registers and every move descriptor naming general registers", "why_tests_cant": "2^15 exclusion sets and all descriptors", "anchors": ["src/jit.cc:TempRegisters", "src/jit.cc:kRegisterMap"]}
{"id": "C14", "title": "Initialised shadow region is empty and guarded", "statement": "After the runtime initialises a thread's region, the shadow pointer designates an empty stack whose underflow guard is zero and disjoint from the scratch word; a check on the empty stack raises SIGILL for every non-zero return address.", "quantifier": "for every region address returned by the allocator and every initial memory content", "why_tests_cant": "all allocation addresses and all garbage contents", "anchors": ["src/runtime.c:__shadow_guard_init_stack", "src/codegen.cc:MemRegionInit"]}
{"id": "C15", "title": "Threads do not disturb each other's shadow stacks", "statement": "Under every interleaving of the pushes and checks of any number of threads, each thread's shadow stack evolves exactly as if the thread ran alone, given that the allocator returns disjoint regions and nobody overflows.", "quantifier": "for every number of threads, every interleaving, every per-thread history", "why_tests_cant": "schedules are unbounded and non-deterministic", "anchors": ["src/runtime.c:__pthread_fn_wrapper", "src/runtime.c:pthread_create", "src/jit.cc:SaveRa", "src/jit.cc:ValidateRa"]}
{"id": "C16", "title": "Shadow region capacity", "statement": "A thread can have exactly 1048572 simultaneously recorded entries inside its 8 MiB region; every history never exceeding that depth writes only inside the region. The next push writes outside the region (there is no bound check).", "quantifier": "for every history of pushes and checks", "why_tests_cant": "deep recursion plus stale entries from longjmp accumulates over the whole history", "anchors": ["src/runtime.c:__shadow_guard_init_stack", "src/jit.cc:SaveRa"]}
{"id": "C17", "title": "Scratch word and guard word do not collide", "statement": "The register-frame scratch word (gs:8) is never a word the underflow guard relies on. (True for the region laid out by the preloaded runtime; false for the region laid out by the code generator's own initialiser, where the guard is overwritten.)", "quantifier": "for both layouts, every region address, every register value", "why_tests_cant": "the collision only shows when an unrelated check later underflows", "anchors": ["src/runtime.c:__shadow_guard_init_stack", "src/codegen.cc:MemRegionInit", "src/jit.cc:JitRegisterPush"]}
{"id": "C18", "title": "Functions classified safe cannot reach an unsafe write", "statement": "A function that light mode skips neither performs an unsafe write itself nor can reach, through the call graph, a function that does (or one assumed unsafe, with unknown control flow, or with an unsafe library call). (False for mutually recursive functions; proved for every call graph without cycles, and for cyclic ones the exact verdict is characterised.)", "quantifier": "for every finite call graph, every visiting order, every combination of local facts", "why_tests_cant": "all graphs and all orders of pointer-keyed sets", "anchors": ["src/passes.h:InterProceduralMemoryAnalysis", "src/pass_manager.h:PassManager::Run"]}
{"id": "C19", "title": "Functions are classified unsafe only for a reason", "statement": "A function classified unsafe can reach, through the call graph, a function with a local reason (unsafe write, assumed unsafe, unknown control flow, unknown write, unsafe library call).", "quantifier": "for every finite call graph including cyclic ones and every visiting order", "why_tests_cant": "all graphs", "anchors": ["src/passes.h:InterProceduralMemoryAnalysis"]}
{"id": "C20", "title": "Exception-free functions make no library calls", "statement": "A function marked exception-free cannot reach a function with a library call or unknown control flow. (False: an already visited callee is judged by its write flag; what does hold is proved.)", "quantifier": "for every call graph, visiting order and write verdicts", "why_tests_cant": "depends on the visiting order of a pointer-keyed set", "anchors": ["src/passes.h:FunctionExceptionAnalysis", "src/instrument.cc:MarkExceptionSafeCalls"]}
{"id": "C21", "title": "Oversized functions are always treated as unsafe", "statement": "A function whose last exit or return block ends more than 20000 bytes after its start is assumed unsafe and therefore never skipped; a function within the limit is not penalised.", "quantifier": "for every function layout (any 64-bit addresses)", "why_tests_cant": "address arithmetic over all layouts", "anchors": ["src/passes.h:LargeFunctionFilter", "src/passes.h:InterProceduralMemoryAnalysis"]}
{"id": "C22", "title": "Stack writes judged safe leave the return address alone", "statement": "A stack write that is not flagged unsafe does not overlap the 8-byte return address slot. (False: the width of the write is ignored; proved for writes that end at or below the slot, in particular for every write of at most 8 bytes at an 8-aligned offset.)", "quantifier": "for every stack offset and width", "why_tests_cant": "width and offset space; only hand-written or vector code shows it", "anchors": ["src/passes.h:StackHeightAnalysis"]}
{"id": "C23", "title": "The register chosen for a register frame is not used by the function", "statement": "The register used by the register frame is neither read nor written, in any width, by any instruction of the function. (False: byte registers sil/dil are not recognised; proved when instructions use none of those four byte names.)", "quantifier": "for every function body and every operand width", "why_tests_cant": "depends on rare operand encodings", "anchors": ["src/passes.h:UnusedRegisterAnalysis", "src/register_utils.h:NormalizeRegisterName", "src/jit.cc:GetUnusedRegister"]}
{"id": "C24", "title": "Register names are normalised to the full register", "statement": "Normalisation maps every sub-register name of the sixteen general registers to the name of the containing 64-bit register, is idempotent on the results and leaves other registers' names alone. (False for sil, dil, bpl, spl; complete table proved otherwise, and the general shape for r8-r15 with any one-letter suffix.)", "quantifier": "for every register name in the architecture's table, and every numbered register with every letter suffix", "why_tests_cant": "tests cover a handful of names", "anchors": ["src/register_utils.h:NormalizeRegisterName"]}
{"id": "C25", "title": "Registers reported dead inside a block can be overwritten", "statement": "If a register is reported dead before an instruction, then changing its value just before that instruction does not change the state after the block.", "quantifier": "for every block of instructions (any semantics that respects its read and write sets), every state, every position, every new value", "why_tests_cant": "semantic non-interference over all blocks and states", "anchors": ["src/passes.h:BlockDeadRegisterAnalysis::CalculateBlockLevelLiveness"]}
{"id": "C26", "title": "A moved entry snippet finds the return address and runs before any unsafe write", "statement": "At the address chosen for a moved entry snippet the return address lies at rsp plus the recorded offset, the return address word is unmodified, and no instruction before that point wrote memory other than by pushing.", "quantifier": "for every block, every state, provided pushes are 8 bytes wide", "why_tests_cant": "all blocks, all states", "anchors": ["src/passes.h:BlockDeadRegisterAnalysis::CalculateEntryInstPoint", "src/jit.cc:JitStackPush"]}
{"id": "C27", "title": "A moved exit check validates the address that will be used", "statement": "At the address chosen for a moved exit check the return address lies at rsp plus the recorded offset, and from there to the return no instruction writes memory, moves rsp other than by popping, or reads the flags which the check clobbers. (False for a pop into rsp itself; proved otherwise.)", "quantifier": "for every block and every state", "why_tests_cant": "time-of-check/time-of-use over all blocks", "anchors": ["src/passes.h:BlockDeadRegisterAnalysis::CalculateExitInstPoint", "src/jit.cc:JitStackPop"]}
{"id": "C28", "title": "Moving the exit check preserves the result of the function", "statement": "Inserting the check at the moved position does not change the registers and memory the function returns with. (False: when only one scratch register is free the other is saved in the red zone, which a later instruction of the block may still read; proved when two registers are free.)", "quantifier": "for every exit block and state", "why_tests_cant": "needs a leaf function with live red-zone data at exit", "anchors": ["src/passes.h:BlockDeadRegisterAnalysis::CalculateExitInstPoint", "src/jit.cc:UseSpecifiedRegisters"]}
{"id": "C29", "title": "Safe path count decides whether a safe path exists", "statement": "If the reported number of safe paths is positive, there is a path of safe blocks from the entry to an exit block; without indirect jumps the converse holds too, and the count never exceeds one plus the number of edges.", "quantifier": "for every finite control flow graph, set of unsafe blocks and exits", "why_tests_cant": "all graphs, with cycles", "anchors": ["src/passes.h:SafePathsCounting"]}
{"id": "C30", "title": "Blocks with unsafe calls are exactly marked", "statement": "After the pass, a block is marked unsafe if and only if it was marked before or its first call edge goes to an unknown target or to a function not classified safe.", "quantifier": "for every code object, call graph and verdicts", "why_tests_cant": "all graphs", "anchors": ["src/passes.h:UnsafeCallBlockAnalysis"]}
{"id": "C31", "title": "Every call is accounted for", "statement": "Every call edge of a function makes it either: have an unknown-control-flow mark, or a recorded library call, or a recorded callee; and nothing is recorded without a corresponding edge. Tail jumps are not recorded.", "quantifier": "for every function and edge list", "why_tests_cant": "all combinations of edge kinds", "anchors": ["src/passes.h:CallGraphAnalysis"]}
{"id": "C32", "title": "Lowering preserves the program's control flow", "statement": "The lowered function has exactly the same executions, block by block, as the original: each path of the new graph maps to a path of the original and each path of the original starting at the entry lifts to one of the new graph.", "quantifier": "for every finite control flow graph, every set of unsafe blocks, paths of any length", "why_tests_cant": "all graphs and unbounded paths", "anchors": ["src/instrument.cc:DoInstrumentationLowering", "src/instrument.cc:CloneFunctionCFG", "src/instrument.cc:RedirectTransitionEdges"]}
{"id": "C33", "title": "Lowering records the return address before any unsafe block and checks it exactly once", "statement": "On every path of the lowered function from the entry: no unsafe block is executed before a push; at most one push is executed; at a return the number of checks executed equals the number of pushes.", "quantifier": "for every graph, unsafe set, path of any length (functions without exception edges into the path, exits without successors)", "why_tests_cant": "unbounded paths over all graphs", "anchors": ["src/instrument.cc:DoInstrumentationLowering", "src/instrument.cc:CoalesceEdgeInstrumentation"]}
{"id": "C34", "title": "Safe paths cost nothing after lowering", "statement": "A path of the lowered function that visits only safe blocks executes no shadow stack code.", "quantifier": "for every graph, unsafe set and path", "why_tests_cant": "unbounded paths over all graphs", "anchors": ["src/instrument.cc:DoInstrumentationLowering", "src/instrument.cc:RedirectTransitionEdges"]}
{"id": "C35", "title": "Coalescing edge instrumentation keeps each push exactly once", "statement": "Replacing the pushes on all the incoming transition edges of a block by one push at the block's entry leaves the sequence of pushes and checks of every execution unchanged.", "quantifier": "for every graph, redirect set and path", "why_tests_cant": "all graphs with loops and shared targets", "anchors": ["src/instrument.cc:CoalesceEdgeInstrumentation", "src/instrument.cc:GetReachableBlocks"]}
{"id": "C36", "title": "Lowering stays sound in functions with exception handlers", "statement": "The guarantee of C33 extends to functions with exception edges. (False: exception edges are neither redirected nor instrumented.)", "quantifier": "for every graph with exception edges", "why_tests_cant": "needs an exception thrown on a lowered path", "anchors": ["src/instrument.cc:skipPatchEdges", "src/instrument.cc:CloneFunctionCFG"]}
{"id": "C37", "title": "Lowered pushes never destroy red-zone data", "statement": "In a function known to use the red zone, no push snippet inserted by lowering writes below rsp on the program stack. (False with --disable_reg_save_opt; proved without it.)", "quantifier": "for every function summary and flag setting", "why_tests_cant": "flag and summary combinations", "anchors": ["src/instrument.cc:DoInstrumentationLowering", "src/jit.cc:JitStackPush", "src/passes.h:UnusedRegisterAnalysis"]}
{"id": "C38", "title": "Fast path instrumentation pushes and checks exactly once on the slow path", "statement": "When the fast path shape is recognised, every path from the entry to a return executes either no shadow stack code (entry straight to the fast return) or exactly one push, before anything else of the slow path, and exactly one check, last.", "quantifier": "for every graph accepted by the recogniser, paths of any length", "why_tests_cant": "all accepted graphs, unbounded paths", "anchors": ["src/instrument.cc:CheckFastPathFunction", "src/instrument.cc:InstrumentFunction"]}
{"id": "C39", "title": "Calls that never return are not treated as exits", "statement": "No check is inserted at an exit that is a call to a non-returning function. (False on the fast path; proved for the other strategies.)", "quantifier": "for every function and strategy", "why_tests_cant": "combination of strategy and exit kinds", "anchors": ["src/instrument.cc:IsNonreturningCall", "src/instrument.cc:InsertSnippet", "src/instrument.cc:CheckFastPathFunction", "src/instrument.cc:DoInstrumentationLowering"]}
{"id": "C40", "title": "Every function gets exactly one protection strategy", "statement": "In light mode each considered function is skipped, lowered, register-framed, fast-path or entry/exit instrumented - exactly one of them - and skipped only if classified safe or listed by the user; in full mode every considered function is entry/exit instrumented.", "quantifier": "for every flag setting, summary and shape", "why_tests_cant": "flag combinations times summaries", "anchors": ["src/instrument.cc:InstrumentFunction", "src/instrument.cc:Skippable"]}
{"id": "C41", "title": "User skip list is honoured", "statement": "A function whose address is in the user's skip list is never instrumented. (False with --disable_sfe or in full mode; proved otherwise.)", "quantifier": "for every flag setting and summary", "why_tests_cant": "flag interaction", "anchors": ["src/instrument.cc:Skippable", "src/instrument.cc:InstrumentFunction"]}
{"id": "C42", "title": "Scope of instrumentation", "statement": "Exactly the functions of .text that may return, of the code objects selected by the flags, are considered; system libraries are left alone under trust_system. (That the main program is always selected is false: a path containing '.so' hides it.)", "quantifier": "for every path name and flag setting", "why_tests_cant": "all path strings", "anchors": ["src/instrument.cc:Instrument", "src/instrument.cc:InstrumentCodeObject", "src/instrument.cc:InstrumentModule", "src/parse.cc:IsSharedLibrary", "src/parse.cc:IsSystemCode"]}
{"id": "C43", "title": "Write statistics add up", "statement": "The reported numbers of stack, global, heap, argument, heap-or-argument and unknown writes are non-negative and sum to the total.", "quantifier": "for every collection of classified writes that passes the classification check", "why_tests_cant": "all inputs", "anchors": ["src/instrument.cc:CountMemoryWrites", "src/instrument.cc:Instrument"]}
{"id": "C44", "title": "Safe-function statistics count functions", "statement": "The statistics file's two counts are the number of safe and of unsafe functions. (False with duplicate names; proved when names are distinct.)", "quantifier": "for every code object", "why_tests_cant": "duplicate static function names", "anchors": ["src/pass_manager.h:PassManager::Run"]}
{"id": "C45", "title": "Light mode protects every active frame whenever an unsafe write happens", "statement": "In a program instrumented in light mode, at the moment an unsafe write executes, the return address of every active frame is recorded (on the shadow stack or in the frame register); hence a corrupted return address is never used: each return goes to the caller, to a still recorded return address, or traps.", "quantifier": "for every program (finite set of functions with arbitrary control flow graphs and call graphs, functions which never return, sections other than .text, any skip list), every execution, every attacker behaviour", "why_tests_cant": "whole-program executions with attacker-controlled memory", "anchors": ["src/passes.h:InterProceduralMemoryAnalysis", "src/passes.h:UnsafeCallBlockAnalysis", "src/instrument.cc:InstrumentFunction", "src/instrument.cc:DoInstrumentationLowering", "src/jit.cc"]}
{"id": "C46", "title": "Heap abstraction merge is a join", "statement": "Merging abstract locations is idempotent, commutative and associative in meaning and yields an upper bound of both. (False across the stack/non-stack boundary where it is left undefined.)", "quantifier": "for every pair and triple of abstract locations", "why_tests_cant": "all nestings of points-to", "anchors": ["src/heap.h:AbstractLocation::Meet"]}
{"id": "C47", "title": "Heap analysis never reaches its impossible cases", "statement": "Starting from the initial facts, no sequence of transfer functions and merges reaches the merge of a stack location with a non-stack one, nor an assignment of a location nested more than one level.", "quantifier": "for every instruction sequence and control flow graph", "why_tests_cant": "invariant over all executions of the analysis", "anchors": ["src/heap.h:HeapAnalysis::TransferFunction", "src/heap.h:HeapContext::PointWiseMeet", "src/heap.h:AbstractLocation::operator="]}
{"id": "C48", "title": "Path helpers", "statement": "Splitting a string at a delimiter and joining the parts gives the string back, up to one trailing delimiter; no part contains the delimiter; the file name of a path with at least one non-slash end is its last component. (The file name of the empty path is undefined.)", "quantifier": "for every string and delimiter", "why_tests_cant": "all strings", "anchors": ["src/utils.cc:Split", "src/utils.cc:GetFileNameFromPath"]}
{"id": "C49", "title": "Trusted library calls", "statement": "A library call is trusted exactly when its name is malloc, strlen, strcmp or starts with _Zna; a function making any other library call is never skipped.", "quantifier": "for every name and every call map", "why_tests_cant": "all strings", "anchors": ["src/pass_manager.h:FuncSummary::IsSafePLTCall", "src/pass_manager.h:FuncSummary::unsafePLTCalls"]}
{"id": "C50", "title": "Trace compression is faithful", "statement": "Removing consecutive duplicates from a call trace yields a trace with no two equal neighbours, keeps first and last events and the set of events, and is idempotent; the windowed variant drops exactly the events equal to one of the two preceding events; neither lengthens the trace.", "quantifier": "for every trace", "why_tests_cant": "all traces", "anchors": ["script/compress.py"]}
{"id": "C51", "title": "Unsafe blocks are those with a dangerous write", "statement": "After the stack height pass a block is marked unsafe exactly if it contains a write to an unknown location or a stack write at or above the return address slot, and the function is marked as unknown-writing or safe accordingly.", "quantifier": "for every function, block list and stack height information", "why_tests_cant": "all instruction sequences", "anchors": ["src/passes.h:StackHeightAnalysis"]}
{"id": "C52", "title": "Red zone accesses through rsp are recorded", "statement": "An access to rsp plus a constant is recorded as a red zone access exactly if the constant is negative; an access through any other register is never recorded.", "quantifier": "for every address expression and instruction", "why_tests_cant": "all displacements", "anchors": ["src/passes.h:RedZoneAccessVisitor", "src/passes.h:UnusedRegisterAnalysis"]}
{"id": "C53", "title": "Moving the entry push preserves the result of the block", "statement": "Inserting the push at the moved position records the return address and does not change the registers, flags and memory with which the block ends, provided the rest of the block uses neither the shadow stack words nor the bytes the push saves a register in.", "quantifier": "for every block, flag setting and machine state", "why_tests_cant": "all machine states", "anchors": ["src/passes.h:BlockDeadRegisterAnalysis::CalculateEntryInstPoint", "src/jit.cc:JitStackPush", "src/jit.cc:UseSpecifiedRegisters"]}
{"id": "C54", "title": "Lowering depends on assertions being compiled in", "statement": "If the tool is compiled without assertions, a function transformed by lowering never checks a return address: the calls that redirect edges are arguments of assert.", "quantifier": "for every function, summary, flag setting and path", "why_tests_cant": "all graphs and paths; only visible in optimised builds", "anchors": ["src/instrument.cc:CloneFunctionCFG", "src/instrument.cc:DoInstrumentationLowering"]}
{"id": "C55", "title": "Pushes clobber only dead registers", "statement": "A register whose value an inserted push changes is dead at the place where the push is executed, also when that place is not the function entry.", "quantifier": "for every push, flag setting, block contents and machine state", "why_tests_cant": "all register allocations and blocks", "anchors": ["src/jit.cc:JitStackPush", "src/jit.cc:SaveTempRegisters", "src/instrument.cc:InstrumentFunction"]}
{"id": "C56", "title": "In a block the push comes before the check", "statement": "If both the entry push and the exit check of a block are moved to instructions with dead registers, the push is placed at or before the check.", "quantifier": "for every block with increasing instruction addresses", "why_tests_cant": "all instruction sequences", "anchors": ["src/passes.h:BlockDeadRegisterAnalysis::CalculateEntryInstPoint", "src/passes.h:BlockDeadRegisterAnalysis::CalculateExitInstPoint"]}
{"id": "C57", "title": "Checks preserve the flags", "statement": "Executing a check leaves the status flags as they were, so a conditional jump at the end of an exit block goes where it would have gone.", "quantifier": "for every check, flag setting and machine state", "why_tests_cant": "all machine states and exit blocks, including conditional tail calls", "anchors": ["src/jit.cc:ValidateRa", "src/jit.cc:JitStackPop", "src/jit.cc:JitRegisterPop"]}
{"id": "C58", "title": "A function judged safe passes control only to functions judged safe", "statement": "Wherever a function with a safe verdict may pass control within the program, by a direct call or by a jump to the start of another function, the target has a safe verdict.", "quantifier": "for every code object without recursion", "why_tests_cant": "all call graphs; tail calls appear only in optimised code", "anchors": ["src/passes.h:CallGraphAnalysis", "src/passes.h:InterProceduralMemoryAnalysis"]}
{"id": "C59", "title": "Dangerous code runs between push and check", "statement": "Whenever an instrumented function executes a dangerous write, makes an unknown call, or calls a function judged unsafe, it has executed its push and not yet its check, whatever strategy was used.", "quantifier": "for every program, function and path", "why_tests_cant": "all control flow graphs and all strategies", "anchors": ["src/instrument.cc:CheckFastPathFunction", "src/instrument.cc:InstrumentFunction", "src/instrument.cc:DoInstrumentationLowering"]}
{"id": "C60", "title": "The heap analysis terminates", "statement": "For every function the heap analysis comes to an end, and what it finds depends only on the function and on the order in which components and sets are iterated.", "quantifier": "for every control flow graph, instruction contents and iteration order", "why_tests_cant": "all graphs with loops; a test cannot tell a long run from an endless one", "anchors": ["src/heap.h:HeapAnalysis::AnalyseBlocks", "src/heap.h:HeapAnalysis::UpdateWorkList"]}
{"id": "C61", "title": "Writes reported as heap writes go to the heap", "statement": "In every run of a function, when an instruction executes whose address the heap analysis reports as HEAP, the base of the address is a pointer that came from the allocator; for ARG, from an argument register at entry; for HEAP_OR_ARG, from either.", "quantifier": "for every function, every order of its sets and every run", "why_tests_cant": "all paths through loops and merges, and all values in the frame", "anchors": ["src/heap.h:HeapAnalysis::AnalyseBlocks", "src/heap.h:HeapAnalysis::TransferFunction", "src/heap.h:HeapAnalysis::HandleMov", "src/heap.h:HeapAnalysis::HandleCall", "src/heap.h:HeapAnalysis::UpdateFunctionSummary"]}
{"id": "C62", "title": "The heap pass only takes back marks it can justify", "statement": "When the heap analysis has found what the unknown writes of a function are, exactly the writes found to be to the heap, the arguments or either are reported as such; a block loses its unsafe mark only if nothing in it is dangerous any more; nothing else in the summary changes.", "quantifier": "for every function, every result of the analysis and every summary", "why_tests_cant": "all mixtures of writes in a block", "anchors": ["src/heap.h:HeapAnalysis::UpdateFunctionSummary"]}
{"id": "C63", "title": "The component graph is the control flow graph with its outer loops contracted", "statement": "For every function the construction ends; every block that can be reached from the entry is in exactly one component; two such blocks share a component exactly if they are equal or in a common outer loop; components are linked exactly if an edge leads from one to the other; a component lists exactly its blocks that return.", "quantifier": "for every control flow graph and every family of outer loops", "why_tests_cant": "all graphs; the recursion visits blocks in an order that depends on all edges", "anchors": ["src/passes.h:CFGAnalysis::RunLocalAnalysis", "src/passes.h:CFGAnalysis::VisitBlock"]}
{"id": "C64", "title": "Components are analysed once each and after those leading to them", "statement": "The heap analysis takes exactly the components with reachable blocks, each once, and a component comes after all components with an edge to it, unless the two lie on a cycle; this does not depend on the iteration order of the sets of pointers.", "quantifier": "for every component graph and every iteration order of its sets", "why_tests_cant": "all graphs and all pointer orders, which vary from run to run", "anchors": ["src/heap.h:HeapAnalysis::PostOrderTraverse", "src/heap.h:HeapAnalysis::Analyse"]}
{"id": "C65", "title": "Lowered pushes and checks use the function's return address", "statement": "The stack heights in the summary are those of the stack analysis, counted from the return address. If the analysis is right about the stack pointer, every push which lowering inserts, on an edge or in a block, in a register or on the shadow stack, moved or not, records the function's return address; every check tests the word to which the stack pointer points when the block ends.", "quantifier": "for every function, stack analysis, strategy flags, block contents and machine state", "why_tests_cant": "all stack depths, block contents and positions of a moved push", "anchors": ["src/passes.h:StackHeightAnalysis", "src/instrument.cc:DoInstrumentationLowering", "src/jit.cc:JitStackPush", "src/jit.cc:JitStackPop"]}
{"id": "C66", "title": "Other pushes and checks use the function's return address", "statement": "On the fast path, and at entries and exits, a push records the word to which the stack pointer points at the beginning of its block and a check tests the word to which it points at the end, even if moved; on the fast path this is the return address whenever the stack heights of the blocks are consistent.", "quantifier": "for every function, summary, block contents, consistent heights and machine state", "why_tests_cant": "all stack depths, block contents and control flow graphs the recogniser accepts", "anchors": ["src/instrument.cc:InstrumentFunction", "src/instrument.cc:CheckFastPathFunction", "src/instrument.cc:MoveInstrumentation"]}
{"id": "C67", "title": "Push and check agree on where the address is kept", "statement": "In one function either all pushes and checks use the register frame or all use the shadow stack.", "quantifier": "for every function, summary and flags", "why_tests_cant": "all combinations of flags, summaries and strategies", "anchors": ["src/instrument.cc:DoInstrumentationLowering", "src/instrument.cc:InstrumentFunction"]}
{"id": "C68", "title": "Every flag that disables an optimisation disables it", "statement": "With --disable_lowering no function is lowered or given a fast path; with --disable_reg_frame no snippet keeps the return address in a register; with --disable_reg_save_opt nothing is inserted at an address inside a block; with --disable_sfe no function is skipped.", "quantifier": "for every flag setting, code object, analysis result and function", "why_tests_cant": "flag combinations times summaries", "anchors": ["src/instrument.cc:InstrumentFunction", "src/instrument.cc:DoInstrumentationLowering", "src/instrument.cc:CheckFastPath"]}
{"id": "C69", "title": "Lowering is used only where it saves work", "statement": "A function is lowered only if its entry block is not unsafe and it has a path from its entry to an exit on which neither a push nor a check runs.", "quantifier": "for every well-formed control flow graph, set of unsafe blocks and safe path count produced by the analysis", "why_tests_cant": "all graphs", "anchors": ["src/instrument.cc:DoInstrumentationLowering", "src/pass_manager.h:FuncSummary::lowerInstrumentation"]}
{"id": "C70", "title": "The heap pass as a whole", "statement": "For every function the heap pass ends with one result; it takes the entry first and every other component after all blocks that lead into it; and a write it reports as HEAP, ARG or HEAP_OR_ARG has in every run a base of that origin.", "quantifier": "for every control flow graph, family of outer loops, iteration order of sets and run", "why_tests_cant": "all graphs, pointer orders and paths", "anchors": ["src/passes.h:HeapWriteAnalysis", "src/passes.h:CFGAnalysis", "src/heap.h:HeapAnalysis::Analyse"]}
{"id": "C71", "title": "A created thread runs what was asked for on an empty shadow stack of its own", "statement": "In every interleaving, a thread created through the library calls the requested function with the requested argument exactly once; when it does, its shadow stack is set up, empty, and disjoint from that of every other thread; a request that cannot be served makes pthread_create fail.", "quantifier": "for every number of threads, schedule, allocator result and thread creation nested in threads", "why_tests_cant": "all interleavings and allocator results", "anchors": ["src/runtime.c:pthread_create", "src/runtime.c:__pthread_fn_wrapper", "src/runtime.c:__shadow_guard_init_stack"]}
{"id": "C72", "title": "Threads that have ended cost no memory", "statement": "The memory which the library allocates for a thread stays allocated while the thread runs and is released once the thread has ended.", "quantifier": "for every number of threads and schedule", "why_tests_cant": "leaks show only in long runs; all schedules", "anchors": ["src/runtime.c:pthread_create", "src/runtime.c:__pthread_fn_wrapper", "src/runtime.c:__shadow_guard_init_stack"]}
{"id": "C73", "title": "The heap analysis reads calls and operands as they are", "statement": "After a call rax is HEAP exactly if an allocation function was called; scratch registers become TOP and nothing else changes; the register found for an operand is the one its address begins with; the facts merged at a block are those at the ends of its predecessors; the assertion checks cover every merge and assignment.", "quantifier": "for every code object, block, operand expression and context", "why_tests_cant": "all operand shapes, call targets and graphs", "anchors": ["src/heap.h:HeapAnalysis::HandleCall", "src/heap.h:HeapAnalysis::ParseOperand", "src/heap.h:RegisterVisitor", "src/heap.h:HeapAnalysis::UpdateWorkList"]}
{"id": "C74", "title": "Registers declared dead at entries and exits are dead", "statement": "Exactly the caller-saved registers which the liveness query reports as not live are declared dead at the entry and at each exit, none if the query fails; a push at the entry and a check at an exit that use them as scratch registers change no register the program still needs.", "quantifier": "for every answer of the liveness query, function, block layout and machine state", "why_tests_cant": "all liveness sets, block layouts and register contents", "anchors": ["src/passes.h:DeadRegisterAnalysis", "src/jit.cc:SaveTempRegisters", "src/jit.cc:JitStackPop"]}
{"id": "C75", "title": "The skip list holds exactly the addresses written in its file", "statement": "Every hexadecimal address in the file given with --skip_list, and nothing else, is put on the list of functions to leave alone.", "quantifier": "for every content of the file and every function", "why_tests_cant": "all texts, including those with comments, signs and numbers that are too large", "anchors": ["src/instrument.cc:Instrument", "src/instrument.cc:Skippable"]}
{"id": "C76", "title": "The statistics file tells the result of the analysis", "statement": "The file given with --stats is in the documented format, can be read in one way only, and lists the safe functions of everything that was analysed with their number and the number of the others; the same number is recorded as the result of each pass.", "quantifier": "for every set of functions, names, times and list of code objects", "why_tests_cant": "all names and counts, and all sequences of objects", "anchors": ["src/pass_manager.h:Run", "src/pass_manager.h:RunPass"]}
{"id": "C77", "title": "The stack protector tool lists the functions with a stack cookie", "statement": "The file written by stack-protector lists, in order, exactly the functions of the application which use the stack cookie, and the tool reports their share of all functions.", "quantifier": "for every list of objects, functions and instructions", "why_tests_cant": "all programs, including those with thread-local variables and late cookie setup", "anchors": ["src/stack_protector.cc:IsStackCookieAccessed", "src/stack_protector.cc:DiscoverStackProtectedFunctions"]}
{"id": "C78", "title": "The benchmark runner reports every benchmark once and correctly", "statement": "run_spec.py never runs more than PARALLEL processes at once, every run of it ends, and then the table has for every configured benchmark the verdict on its output.", "quantifier": "for every interleaving of the script and its processes, list of configurations and output", "why_tests_cant": "all interleavings and all outputs, including those that fill a pipe", "anchors": ["script/run_spec.py:WaitForFinish", "script/run_spec.py:GenerateTestConfigurations", "script/run_spec.py:PrintResultsTable"]}
{"id": "C79", "title": "The machine code protects whole programs", "statement": "While a thread executes the instrumented program on the x86-64 machine, running the emitted snippets on the real shadow region, every return address is in the shadow region or in a frame register whenever return addresses can be overwritten; no return goes unchecked to anything but the caller; a check accepts only the caller, another activation, or zero; and SIGILL is raised only when the return address was changed.", "quantifier": "for every program, every execution of any length, every sequence of calls and attacks and every machine state in between", "why_tests_cant": "all interleavings of calls, attacks and snippets over all memories", "anchors": ["src/instrument.cc:InstrumentFunction", "src/codegen.cc", "src/jit.cc:JitStackPush", "src/jit.cc:JitStackPop", "src/jit.cc:JitRegisterPush", "src/jit.cc:JitRegisterPop"]}
{"id": "C80", "title": "Every snippet of every plan addresses the right stack word", "statement": "For every push and check which the instrumenter plans for a function, the emitter returns code; executed where the plan puts it, it is of the kind the function uses (shadow region or frame register) and takes the return address from where the call stored it; hence executing the planned code at the planned places protects whole programs as in C79.", "quantifier": "for every program, plan, place, machine state and execution of any length", "why_tests_cant": "all plans of all functions at all stack heights, moved or not", "anchors": ["src/instrument.cc:InstrumentFunction", "src/instrument.cc:InsertSnippet", "src/codegen.cc", "src/passes.h:BlockDeadRegisterAnalysis", "src/passes.h:StackHeightAnalysis"]}
{"id": "C81", "title": "The tool gets through every program whose calls stay inside and whose heights are known", "statement": "The analyses of functions, call graph and exceptions end with a result exactly when every direct call goes to a function of the code object; instrumenting a function then ends with a plan if Dyninst knows the stack height of a block whenever it knows it at the end of a predecessor, so that the programs of C45, C79 and C80 exist for all such code.", "quantifier": "for every code object, function and table of facts", "why_tests_cant": "all shapes of call graphs and control flow graphs, recursive or not", "anchors": ["src/passes.h:CallGraphAnalysis", "src/instrument.cc:DoInstrumentationLowering", "src/instrument.cc:InstrumentFunction", "src/instrument.cc:MoveInstrumentation"]}
{"id": "C82", "title": "The plotted overheads are minimum, median and maximum of the runs", "statement": "plot.py takes from a result file exactly the non-empty rows between the heading of the full table and the heading of the selected one; for the pairs of base and peak times it computes the overhead in per cent, its minimum, median and maximum, which exist exactly when there is a pair and no base time is zero; the bars drawn around the median are not negative.", "quantifier": "for every list of rows and all lists of times", "why_tests_cant": "all numbers of runs, odd and even, and all times", "anchors": ["script/plot.py:extract_data_csv", "script/plot.py:_overhead"]}
{"id": "C83", "title": "The plotted benchmarks are sorted into the wanted order", "statement": "Sorting the benchmarks by the list of names in plot.py ends with a permutation in that order; it ends exactly if there are as many benchmarks as names and each name occurs.", "quantifier": "for every list of benchmarks and every order", "why_tests_cant": "termination of a while loop for all inputs", "anchors": ["script/plot.py"]}
{"id": "C84", "title": "The microbenchmarks measure a push and a check and disturb nothing else", "statement": "The inline assembly of the microbenchmarks leaves registers, stack pointer and memory outside the thread area as they were, records the return address and compares with the recorded one, in every iteration.", "quantifier": "for every machine state and number of iterations", "why_tests_cant": "all states and all numbers of iterations", "anchors": ["microbenchmarks/shadow_stack.cc:BM_ShadowStackPush", "microbenchmarks/shadow_stack.cc:BM_ShadowStackPop"]}
{"id": "C85", "title": "The check of a rewritten binary finds every missing spring board", "statement": "check_inst.py takes every instruction of a disassembly with the instruction before it, and if it prints no complaint every labelled function starts with a jump to relocated code which begins with a push.", "quantifier": "for every disassembly", "why_tests_cant": "all texts of the shape of objdump's output", "anchors": ["script/check_inst.py"]}
{"id": "C86", "title": "Whole programs are protected also when they throw exceptions", "statement": "A program analysed and instrumented in light mode which throws and catches exceptions or uses longjmp: at dangerous moments every return address is recorded; no return goes unchecked to anything but the caller; a check accepts only the address of an activation between its push and its check, of one which has disappeared between the two, or zero; and no check of an unchanged address fails.", "quantifier": "for every program, function to start with, execution with unwinding at any moment, and attacker", "why_tests_cant": "all interleavings of calls, overwriting and unwinding", "anchors": ["src/instrument.cc:InsertSnippet", "src/instrument.cc:DoInstrumentationLowering", "src/jit.cc:JitStackPush", "src/jit.cc:JitStackPop"]}
{"id": "C87", "title": "The emitted code protects whole programs which throw exceptions", "statement": "A program analysed and instrumented in light mode, executed on the machine with the code emitted for its plans and with unwinding at any moment: at dangerous moments every return address stands in the thread's shadow region or in the frame register; no return goes unchecked to anything but the caller; a check accepts only the address of an activation between its push and its check, of one which has disappeared between the two, or zero; no check of an unchanged address kills the thread.", "quantifier": "for every program, function to start with, machine state, execution with unwinding at any moment, and attacker", "why_tests_cant": "all interleavings of calls, overwriting and unwinding, for all contents of memory", "anchors": ["src/instrument.cc:InsertSnippet", "src/jit.cc:JitStackPush", "src/jit.cc:JitStackPop", "src/runtime.c"]}
{"id": "C88", "title": "The emitted code protects programs with several threads", "statement": "A program with any number of threads, analysed and instrumented in light mode and executed with the code emitted for its plans, the threads taking turns after every instruction, within pushes and checks also: at dangerous moments of a thread every return address of it stands in its shadow region or in the frame register; no return of any thread goes unchecked to anything but the caller; a check accepts only the address of an activation of the thread between its push and its check, of one which has disappeared between the two, or zero; no check of an unchanged address kills the process.", "quantifier": "for every program, number of threads, function each of them starts with, memory, interleaving and attacker", "why_tests_cant": "all interleavings of any number of threads, instruction by instruction, for all contents of memory", "anchors": ["src/instrument.cc:InsertSnippet", "src/jit.cc:JitStackPush", "src/jit.cc:JitStackPop", "src/runtime.c"]}
{"id": "C89", "title": "Full mode protects whole programs", "statement": "A program instrumented with --shadow_stack=full: every function of .text which may return pushes at its entry and checks at each of its exits; no return goes unchecked to anything but the caller, whatever an attacker writes at dangerous moments; a check accepts only the address of an activation of the thread between its push and its check, of one which has disappeared between the two, or zero; no check of an unchanged address kills the process. The same with exceptions, with the emitted code on the machine, and with several threads.", "quantifier": "for every program, control flow graph, call graph (recursive ones too), skip list, execution, attacker, number of threads and interleaving", "why_tests_cant": "quantifies over all programs, executions and attackers", "anchors": ["src/instrument.cc:InstrumentFunction", "src/instrument.cc:InsertSnippet", "src/jit.cc:JitStackPush", "src/jit.cc:JitStackPop"]}
{"id": "C90", "title": "A run of the tool protects each code object it considers", "statement": "If the tool gets through all code objects, then of each one which is neither a library left out nor trusted exactly those functions which may return and are in .text are treated, each once, in the order of the modules and with the analyses of their own code object; and the code object is protected as C45 (light mode) and C89 (full mode) say.", "quantifier": "for every list of code objects, set of flags, skip list, split into modules, execution and attacker", "why_tests_cant": "quantifies over all lists of code objects and over all executions of the result", "anchors": ["src/instrument.cc:Instrument", "src/instrument.cc:InstrumentCodeObject", "src/instrument.cc:InstrumentModule", "src/instrument.cc:InstrumentFunction"]}
{"id": "C91", "title": "The report at the end counts what was done", "statement": "The numbers printed at the end of a run are those of the functions treated: how many there are, how many of them were left alone, have indirect or PLT calls, how many memory writes they have and of which kind, and at how many places of lowered functions registers had to be saved; the percentages are numbers between 0 and 100 and add up to 100; the input file is overwritten only if it is named as output.", "quantifier": "for every list of code objects, set of flags and skip list", "why_tests_cant": "all lists of code objects with arbitrary analyses", "anchors": ["src/instrument.cc:Instrument", "src/instrument.cc:CountMemoryWrites", "src/instrument.cc:DoInstrumentationLowering"]}
{"id": "C92", "title": "Programs consisting of several instrumented code objects are protected", "statement": "A program whose code objects - the executable and, with --libs, its libraries - have all been instrumented in one run is protected, whichever function of whichever code object calls which one, also through unknown code, with several threads, exceptions and the emitted code.", "quantifier": "for every number of code objects, every binding of library names, every start function and every execution", "why_tests_cant": "executions across code objects under attack", "anchors": ["src/instrument.cc:Instrument", "src/instrument.cc:InstrumentCodeObject", "src/passes.h:IsSafePLTCall"]}
{"id": "C93", "title": "A failing check raises SIGILL", "statement": "The byte 0x62 which a failing check runs into is not an instruction together with the bytes that follow it, whatever code stands behind the snippet, so that the processor raises SIGILL.", "quantifier": "for every configuration, summary and point, and all bytes behind the snippet", "why_tests_cant": "bytes after the snippet come from the instrumented program; needs an AVX-512 processor and an attack", "anchors": ["src/jit.cc:JitStackPop", "src/jit.cc:JitRegisterPop", "src/jit.cc:RestoreTempRegisters", "src/passes.h:BlockDeadRegisterAnalysis"]}
{"id": "C94", "title": "Whole programs are protected also on processors with AVX-512", "statement": "On a processor with AVX-512, where the byte 0x62 of a failing check is the beginning of a vector instruction if the bytes behind it fit, an instrumented program is protected as on other processors, and no failing check is passed over.", "quantifier": "for every program, plan, run and all bytes behind the snippets", "why_tests_cant": "needs an attack at run time on such a processor, and depends on the bytes placed behind every check", "anchors": ["src/jit.cc:JitStackPop", "src/instrument.cc:MoveInstrumentation", "src/passes.h:BlockDeadRegisterAnalysis"]}
{"id": "C95", "title": "Status 0 means the named program was treated as asked", "statement": "If the tool's main returns 0, it was in one of the two documented modes, treated exactly the functions in scope of the binary given as first argument, read the skip list it was given, wrote the result under the name asked for and not over the input unless told so, and each code object it considered is protected as C90 says; undocumented values of flags have a documented meaning; bad arguments are reported.", "quantifier": "for every state of the machine it runs on, all flags and all arguments", "why_tests_cant": "quantifies over all machines, files and flags", "anchors": ["src/cfi.cc:main", "src/cfi.cc:ValidateShadowStackFlag", "src/parse.cc:InitParser", "src/instrument.cc:Instrument"]}
{"id": "C96", "title": "What the marks of a summary say", "statement": "After the default passes: assume_unsafe says that an oversized function is reachable by recorded calls; child_writes that a callee is not safe; self_unsafe_writes that a function which is not oversized writes to the stack at the return address or above; unknown_writes lists exactly the writes with unknown address; and the verdict is the disjunction of the marks. Library calls and unknown control flow do not set assume_unsafe, contrary to the comment and to the tests.", "quantifier": "for every code object, stack analysis, function and call graph (the exact meaning of the marks that are passed on: without recursion)", "why_tests_cant": "quantifies over all call graphs and all code", "anchors": ["src/pass_manager.h:FuncSummary", "src/passes.h:InterProceduralMemoryAnalysis::VisitFunction", "src/passes.h:LargeFunctionFilter", "tests/analysis_test.cc"]}
{"id": "C97", "title": "Jumps whose targets the parser does not find", "statement": "If jumps through tables which Dyninst could not analyse lead to blocks of their functions, the instrumented program is still protected: every dangerous moment finds the return addresses recorded, and no return is unchecked.", "quantifier": "for every program, table contents, execution and attacker move (functions with such jumps neither lowered nor on a fast path, for which it is false)", "why_tests_cant": "quantifies over all programs, all contents of the tables and all executions under attack", "anchors": ["src/instrument.cc:DoInstrumentationLowering", "src/instrument.cc:CheckFastPathFunction", "src/passes.h:CallGraphAnalysis::UpdateCallees"]}
{"id": "C98", "title": "Which instructions the embedded byte can become", "statement": "The byte 0x62 which AsmJit embeds for a failing check begins a vector instruction exactly if the five bytes behind it are the fields of a line of the processor manual with register operands; pops, the flag pop and the load of the shadow stack pointer have the encodings of the manual for every register and displacement.", "quantifier": "for all byte sequences, registers and displacements", "why_tests_cant": "quantifies over all byte sequences behind the byte", "anchors": ["src/jit.cc:JitStackPop", "src/jit.cc:JitRegisterPop"]}
{"id": "C99", "title": "Signal handlers", "statement": "A thread whose functions and signal handlers are honest is never killed by a check, and its pending return addresses stay recorded, although signals may arrive between any two instructions of a snippet and handlers run snippets on the same shadow region and may leave by siglongjmp.", "quantifier": "for all executions of any length, all snippets the emitter produces, signals at any instruction, handlers nested to any depth", "why_tests_cant": "quantifies over all interleavings of instructions and signals", "anchors": ["src/jit.cc:JitStackPush", "src/jit.cc:JitStackPop", "src/jit.cc:JitRegisterPush", "src/jit.cc:JitRegisterPop", "src/assembler.cc"]}
{"id": "C100", "title": "The emitted code protects whole programs with signal handlers", "statement": "A program analysed and instrumented in light mode, executed on the machine with the code emitted for its plans, with unwinding at any moment and with signals: at dangerous moments every return address stands in the thread's shadow region or in the frame register; no return goes unchecked to anything but the caller; a check accepts only the address of an activation between its push and its check, of one which has disappeared between the two, or during its push, in this execution, one of those to which handlers return, or zero; no check of an unchanged address kills the thread.", "quantifier": "for every program, function to start with, machine state, execution with unwinding and signals at any moment (within snippets also), handlers nested to any depth, and attacker", "why_tests_cant": "all interleavings of calls, overwriting, unwinding and signals, for all contents of memory", "anchors": ["src/instrument.cc:InsertSnippet", "src/instrument.cc:Skippable", "src/jit.cc:JitStackPush", "src/jit.cc:JitStackPop", "src/jit.cc:JitRegisterPush", "src/jit.cc:JitRegisterPop"]}
{"id": "C101", "title": "What a successful run of the tool writes is protected on the machine", "statement": "If the tool's main returns 0, then the program consisting of all code objects of the binary which the tool considers, executed on the machine with the code which the tool has emitted for the pushes and checks in its result, is protected: with any number of threads taking turns after every instruction and with unwinding at any moment as C88 says, and with unwinding and signals in one thread as C100 says.", "quantifier": "for every binary, list of code objects, set of flags (light or full mode), skip list, binding of library names, start function, machine state, execution, handlers and attacker", "why_tests_cant": "from the tool's flags and input to all executions of its output under attack", "anchors": ["src/cfi.cc:main", "src/instrument.cc:Instrument", "src/instrument.cc:InstrumentCodeObject", "src/instrument.cc:InstrumentFunction", "src/jit.cc:JitStackPush", "src/jit.cc:JitStackPop"]}
{"id": "C102", "title": "The emitted code protects programs with several threads and signal handlers", "statement": "A program with several threads, analysed and instrumented by the tool and executed with the code emitted for its plans, is protected as C88 and C100 say, if the threads take turns after every instruction, signals arrive in any thread at any time, also in snippets and in handlers, and the handlers too are executed instruction by instruction in any order with the other threads; no handler is killed which has interrupted the program outside of its snippets. The same holds for all code objects together after a run of the tool.", "quantifier": "for every binary, set of flags, number of threads, interleaving, signal, nesting of handlers, machine state, execution and attacker", "why_tests_cant": "unboundedly many interleavings of threads and handlers at every instruction, under attack", "anchors": ["src/jit.cc:JitStackPush", "src/jit.cc:JitStackPop", "src/jit.cc:JitRegisterPush", "src/jit.cc:JitRegisterPop", "src/instrument.cc:Instrument"]}
{"id": "C103", "title": "The instrumented program does what the original does", "statement": "A program with inserted snippets shows the outside world exactly what the original shows, can go on wherever the original can, and is never killed, provided that what its checks look at has been announced by its pushes and not been changed since, that the stack is outside the shadow region, and that the program does not look at the flags, dead registers, bytes below the stack pointer and frame registers which the snippets change before it has written them.", "quantifier": "for every program (any control points, steps and labels, also nondeterministic and non-terminating ones), placement of snippets, machine state and execution", "why_tests_cant": "unboundedly many programs and executions; a test can only compare outputs of single runs", "anchors": ["src/jit.cc:JitStackPush", "src/jit.cc:JitStackPop", "src/jit.cc:JitRegisterPush", "src/jit.cc:JitRegisterPop", "src/instrument.cc:Instrument"]}
{"id": "C104", "title": "Programs instrumented by the plans do what the originals do", "statement": "Take a binary as the analyses assume it, the plans which the tool makes for its functions, and the code which it emits for them. A program whose functions follow their control flow, whose return addresses stay where they are stored, and which does not look at what the snippets of the plans destroy (dead registers, the flags after checks, 8 or 16 bytes below the stack pointer) shows the outside world exactly what the original shows, can go on wherever the original can, and is never killed. This also holds if exceptions or longjmp abandon activations.", "quantifier": "for every binary, program, placement by the plans, machine state and execution within the depth of the shadow region", "why_tests_cant": "unboundedly many programs, plans and executions", "anchors": ["src/instrument.cc:InstrumentFunction", "src/instrument.cc:CheckFastPathFunction", "src/instrument.cc:DoInstrumentationLowering", "src/instrument.cc:InsertSnippet", "src/jit.cc:JitStackPush", "src/jit.cc:JitStackPop", "src/jit.cc:JitRegisterPush", "src/jit.cc:JitRegisterPop"]}
{"id": "C105", "title": "Programs instrumented in full mode do what the originals do", "statement": "With --shadow_stack=full every function of .text which may return gets a push at its entry and a check at its exits. A program so instrumented, whose return addresses stay where they are stored and which does not look at the flags after a check nor at the 16 bytes below the stack pointer after a snippet, shows the outside world exactly what the original shows, can go on wherever the original can, and is never killed, also if it is recursive and if exceptions or longjmp abandon activations.", "quantifier": "for every binary, program, machine state and execution within the depth of the shadow region", "why_tests_cant": "unboundedly many programs and executions", "anchors": ["src/instrument.cc:InstrumentFunction", "src/instrument.cc:InsertSnippet", "src/instrument.cc:StackPushSnippet", "src/instrument.cc:StackPopSnippet", "src/jit.cc:JitStackPush", "src/jit.cc:JitStackPop"]}
{"id": "C106", "title": "What is not live is not missed", "statement": "Let the instructions of a program do what they declare: they keep what they do not write, and what they do depends only on what they read. If the registers, flags and bytes which the inserted snippets may destroy are not live there, in the sense of the usual equations of live variables on the executions of the original, then the instrumented program shows the outside world exactly what the original shows and is never killed, in light mode as in full mode.", "quantifier": "for every program made of such instructions, every solution of the equations, every state and execution", "why_tests_cant": "unboundedly many programs and executions", "anchors": ["src/instrument.cc:InstrumentFunction", "src/jit.cc:SaveTempRegisters", "src/jit.cc:UseSpecifiedRegisters", "src/passes.h:BlockDeadRegisterAnalysis", "src/passes.h:DeadRegisterAnalysis"]}
{"id": "C107", "title": "Registers which are dead at the entry of a function may be used by its pushes", "statement": "With --optimize_regs a push which is not moved into the code of its block uses registers which are dead at the entry of the function without saving them. If the program has no use for what these registers hold when the function is entered, the instrumented program does what the original does.", "quantifier": "for every program, every solution of the equations of live variables, every state and execution", "why_tests_cant": "unboundedly many programs and executions; the registers concerned depend on the function", "anchors": ["src/jit.cc:JitStackPush", "src/jit.cc:SaveTempRegisters", "src/passes.h:DeadRegisterAnalysis", "src/instrument.cc:InstrumentFunction"]}
{"id": "C108", "title": "Programs with several threads do what the originals do", "statement": "Let the threads of a program share memory and take turns after every instruction, also in the middle of inserted snippets. If no thread looks at what the snippets destroy, writes to a shadow region or to the return addresses, or to the bytes below the stack pointer, of another thread, and every thread returns to where it was called from, then whatever the outside world can see of the instrumented program it can see of the original, in the same order, and the other way round; the instrumented program can go on wherever the original can, is never killed, and every snippet comes to an end however the others go on.", "quantifier": "for every program, any set of threads, every interleaving, state and execution", "why_tests_cant": "unboundedly many interleavings of unboundedly many threads", "anchors": ["src/jit.cc:JitStackPush", "src/jit.cc:JitStackPop", "src/jit.cc:JitRegisterPush", "src/jit.cc:JitRegisterPop", "src/runtime.c:__shadow_guard_init_stack"]}
{"id": "C109", "title": "Programs with several threads, instrumented by the plans, do what the originals do", "statement": "A program with any number of threads, each of them a stack of activations of functions instrumented as the tool plans it in light or in full mode, shows the outside world what the original shows and is never killed, with recursion, tail calls, exceptions and longjmp.", "quantifier": "for every binary, program, set of threads, interleaving, state and execution within the depth of the shadow regions", "why_tests_cant": "unboundedly many programs and interleavings", "anchors": ["src/instrument.cc:InstrumentFunction", "src/instrument.cc:InsertSnippet", "src/jit.cc:JitStackPush", "src/jit.cc:JitStackPop"]}
{"id": "C110", "title": "What is not live in any thread is not missed", "statement": "Let the instructions of a program with threads do what they declare. If what the snippets may destroy is not live in the thread which executes them, in the sense of the usual equations of live variables, and no thread reads what another has lost or writes to its stack of return addresses, then the instrumented program shows the outside world exactly what the original shows and is never killed.", "quantifier": "for every program made of such instructions, any set of threads, every solution of the equations, every state and interleaving", "why_tests_cant": "unboundedly many programs and interleavings", "anchors": ["src/jit.cc:SaveTempRegisters", "src/jit.cc:UseSpecifiedRegisters", "src/passes.h:BlockDeadRegisterAnalysis", "src/passes.h:DeadRegisterAnalysis"]}
{"id": "C111", "title": "Nothing is recorded or checked before the shadow stack exists", "statement": "While a program is being loaded, no push and no check is executed before the constructor of the runtime library has set up the shadow stack: neither in the resolvers of indirect functions, which run during relocation, nor in the functions of DT_PREINIT_ARRAY, nor in functions of the program which take the place of those that the constructor calls.", "quantifier": "for every binary and instrumentation of it, every set of functions which run early and every order of their execution", "why_tests_cant": "the resolvers of the tests' binaries are in the C library, which is not instrumented; what runs before the constructor depends on the binary and on the loader", "anchors": ["src/instrument.cc:GetIFUNCs", "src/instrument.cc:InstrumentModule", "src/runtime.c:__shadow_guard_init_stack", "script/run.sh"]}
{"id": "C112", "title": "Processes which fork raise no false alarm", "statement": "If a process whose shadow stack is initialised, and its children, create further processes with fork and vfork, and children of vfork do not return from the function which called it, no process is killed by a check; the check of every return to where a function was called from passes, and addresses which are not recorded are stopped in each of them.", "quantifier": "for every family of processes and every interleaved execution with calls, returns, longjmp and exceptions", "why_tests_cant": "unboundedly many processes and executions", "anchors": ["src/runtime.c:__shadow_guard_init_stack", "src/runtime.c:__pthread_fn_wrapper", "src/jit.cc:JitStackPush", "src/jit.cc:JitStackPop"]}
{"id": "C113", "title": "Flows of control without a shadow stack of their own raise no false alarm", "statement": "Flows of control which are made by other means than pthread_create - makecontext, clone, thrd_create - and hence share the shadow stack of their maker are never killed by a check.", "quantifier": "for every number of flows and every order in which control passes between them", "why_tests_cant": "no test of the repository uses contexts; the failure depends on the order", "anchors": ["src/runtime.c:pthread_create", "src/runtime.c:__pthread_fn_wrapper"]}
{"id": "C114", "title": "The inserted bytes do what the instructions of the snippets say", "statement": "Wherever the bytes which StackOpSnippet::generate hands to Dyninst are placed, the processor that executes them from the first one comes to their end in a state if and only if the emitted instructions end in this state, and gets SIGILL in them if and only if the emitted instructions reach the embedded byte; no instruction which it executes begins outside of them. So pushes record the return address and checks accept or stop as the properties of the instructions say, whatever the address of the buffer is for which the code was relocated. On processors with AVX-512 this presupposes that the bytes behind the embedded one make no instruction of it.", "quantifier": "for every snippet that is assembled, every place of its bytes, everything around them and every machine state", "why_tests_cant": "tests execute a few snippets at a few addresses; the bytes are relocated for one buffer and executed elsewhere", "anchors": ["src/instrument.cc:StackOpSnippet", "src/instrument.cc:generate", "src/jit.cc:JitStackPush", "src/jit.cc:JitStackPop", "src/jit.cc:ValidateRa"]}
{"id": "C115", "title": "Every snippet can be assembled", "statement": "Whatever the flags and the results of the analyses are, the snippets emitted for stack pushes, checks, register pushes and register pops are encoded without an error of the assembler, which would only be printed: all numbers fit into their fields, every label is bound exactly once, and every jump has a target. A snippet has at most 405 bytes.", "quantifier": "for all flags, summaries, move descriptors and heights whose offsets are ints", "why_tests_cant": "errors depend on offsets and on combinations of flags which tests do not enumerate; the error handler hides them", "anchors": ["src/assembler.cc:PrintErrorHandler", "src/jit.cc:JitStackPush", "src/jit.cc:JitStackPop", "src/jit.cc:JitRegisterPush", "src/jit.cc:JitRegisterPop"]}
{"id": "C116", "title": "Return addresses are protected from other threads at all times", "statement": "When another thread overwrites return addresses at any moment, also between two instructions of a snippet, a return of a protected function still goes to an address that was recorded. This is false: there are two windows, from the call to the instruction of the push which loads the return address, and from the last comparison of a check to the return instruction. Outside of these windows it holds: a push records what the slot held at one moment, and a check which lets go saw a recorded address, or 0, in the slot at one moment, whatever others wrote before and after.", "quantifier": "for all snippets, all moments, all writers which leave the shadow stack and the save area alone, and all runs of a thread", "why_tests_cant": "the windows are a few instructions wide; tests with threads do not hit them, and cannot show that there are no others", "anchors": ["src/jit.cc:SaveRa", "src/jit.cc:ValidateRa", "src/jit.cc:JitStackPush", "src/jit.cc:JitStackPop"]}
{"id": "C117", "title": "The instrumented program in memory does what the original does", "statement": "If the instrumented program, with snippets taken for the lists of instructions that asmjit is asked for, does what the original does (C103 to C107), then so does the program in memory, whose snippets are the bytes that StackOpSnippet::generate copies into the buffer: every observable behaviour of one is one of the other, it is not killed, every snippet that has begun comes to its end, and no byte sequence is executed that is not an instruction of a snippet. With attacks, if the embedded byte is undefined wherever it stands, the bytes and the lists have the same executions, including those killed by SIGILL. Texts with all the bytes exist.", "quantifier": "for all programs, all placements of the bytes, processors with and without AVX-512, and all executions", "why_tests_cant": "the theorems about programs are about instructions; a difference of one byte, or a jump into the middle of an instruction, shows only in some executions", "anchors": ["src/instrument.cc:StackOpSnippet", "src/instrument.cc:generate", "src/jit.cc:JitStackPush", "src/jit.cc:JitStackPop", "src/jit.cc:JitRegisterPush", "src/jit.cc:JitRegisterPop"]}
{"id": "C118", "title": "The instrumented program with threads in memory does what the original does", "statement": "If the instrumented program with any number of threads, with snippets taken for the lists of instructions that asmjit is asked for, does what the original does (C108, C109), then so does the program in memory, where the threads execute the bytes that StackOpSnippet::generate copies into the buffer and take turns after every instruction: what the outside world sees of one it can see of the other, in the same order, no thread is killed, and every snippet that has begun can be completed. With attacks, if the embedded byte is undefined wherever it stands, the executions of the bytes are those of the lists, moment for moment: same memory, same registers of all threads, same points of the program; and one ends with SIGILL if and only if the other does.", "quantifier": "for all programs, numbers of threads, interleavings, placements of the bytes, and processors with and without AVX-512", "why_tests_cant": "interleavings of machine instructions of several threads cannot be enumerated", "anchors": ["src/instrument.cc:StackOpSnippet", "src/instrument.cc:generate", "src/jit.cc:JitStackPush", "src/jit.cc:JitStackPop", "src/jit.cc:JitRegisterPush", "src/jit.cc:JitRegisterPop"]}
{"id": "C119", "title": "The inserted bytes protect programs with several threads", "statement": "If a program with any number of threads is protected when the snippets are taken for the lists of instructions that asmjit is asked for (C88, C101), then it is protected when its threads execute the bytes that StackOpSnippet::generate copies into the buffer and take turns after every machine instruction, wherever the bytes have been put: no thread returns to an address which has been overwritten without a check, a check accepts only an address which is 0, recorded, or lost by unwinding, no thread whose return address is intact is killed; and a thread which has come to the bytes of a snippet stays in these until it comes behind the last of them or is killed, provided that the embedded byte is undefined wherever it stands.", "quantifier": "for all programs, numbers of threads, interleavings, attacks, placements of the bytes, and processors with and without AVX-512", "why_tests_cant": "interleavings of machine instructions of several threads, and attacks between any two of them, cannot be enumerated", "anchors": ["src/instrument.cc:StackOpSnippet", "src/instrument.cc:generate", "src/jit.cc:JitStackPush", "src/jit.cc:JitStackPop", "src/jit.cc:JitRegisterPush", "src/jit.cc:JitRegisterPop"]}
{"id": "C120", "title": "The inserted bytes protect programs with threads and signal handlers", "statement": "If a program with any number of threads and signal handlers is protected when the snippets are taken for lists of instructions (C102), then it is protected when threads and handlers execute the bytes that StackOpSnippet::generate copies into the buffer and signals arrive in front of any machine instruction of these bytes: what C102 says holds of every such execution, and neither the program nor a handler gets out of the bytes of a snippet elsewhere than at their end, provided that the embedded byte is undefined wherever it stands. The places where handlers must leave the shadow region alone are those of the lists: the lea of a push and the store behind it.", "quantifier": "for all programs, threads, handlers nested to any depth, moments at which signals arrive, attacks, placements of the bytes, and processors with and without AVX-512", "why_tests_cant": "signals between any two machine instructions of any thread cannot be enumerated", "anchors": ["src/instrument.cc:StackOpSnippet", "src/instrument.cc:generate", "src/jit.cc:JitStackPush", "src/jit.cc:JitStackPop", "src/jit.cc:JitRegisterPush", "src/jit.cc:JitRegisterPop"]}
{"id": "C121", "title": "The inserted bytes protect programs on processors with several cores", "statement": "What C120 says of programs with threads and signal handlers holds whatever lies between threads and memory, as long as a thread sees its own writes at once: the code emitted by the tool contains no fences and needs none. In particular it holds on x86, where the writes of each thread wait in a store buffer and get to memory later. Other threads must spare what a thread relies on, which counts when a write gets to memory; if threads never write to each other's areas, nothing is asked of the moment at which that happens.", "quantifier": "for all programs, threads, handlers, attacks, placements of the bytes, memories in which a thread sees its own writes, and moments at which writes are passed on", "why_tests_cant": "which writes are still in a store buffer when another thread reads cannot be controlled by a test", "anchors": ["src/instrument.cc:StackOpSnippet", "src/jit.cc:JitStackPush", "src/jit.cc:JitStackPop", "src/jit.cc:JitRegisterPush", "src/jit.cc:JitRegisterPop"]}
{"id": "C122", "title": "The generated library is made from the generated code", "statement": "If Codegen() returns the name of a library, that library has been compiled from the text of MemRegionInit() and nothing else, whatever other users of the machine do to /tmp/.litecfi_tmp between any two of its system calls and whatever was there before; and that text initialises the region as the model of the initialiser says. If it returns the empty string, no library has been made.", "quantifier": "for all users, permissions, contents of the directory, interleavings of any number of runs of the tool and of actions of other users, and both values of validate_frame", "why_tests_cant": "what others do between two system calls, full disks and other users' permissions are not under the control of a test", "anchors": ["src/codegen.cc:Codegen", "src/codegen.cc:MemRegionInit"]}
{"id": "C123", "title": "Instrumented programs do what the originals do on processors with store buffers", "statement": "A program with several threads whose writes wait in store buffers, get to memory in order and at any time, and are waited for by locked instructions, does the same after instrumentation as before: whatever the outside world sees of one, in this order, it can see of the other, memory outside of the threads' areas is the same, the snippets do not kill it and come to an end.", "quantifier": "for all programs, threads, interleavings and delays of writes, all plans of light and full mode, with and without exceptions", "why_tests_cant": "when a write gets to memory depends on the processor; a test observes a few of the possible orders", "anchors": ["src/jit.cc:JitStackPush", "src/jit.cc:JitStackPop", "src/instrument.cc:InstrumentFunction"]}
{"id": "C124", "title": "Programs in memory do what the originals do on processors with store buffers", "statement": "If an instrumented program with several threads does what the original does on a processor with store buffers when snippets are lists of instructions, then it does so in memory: all threads execute the bytes which asmjit wrote, instruction by instruction, what these write waits in the buffers of their threads, and threads and buffers go on in any order. A byte 0x62 behind which nothing else than an undefined instruction can stand kills it in one exactly when in the other.", "quantifier": "for all programs, threads, interleavings and delays of writes, all snippets asmjit can encode, any address of their bytes, with and without AVX-512", "why_tests_cant": "when a write gets to memory depends on the processor; a test observes a few of the possible orders", "anchors": ["src/jit.cc:JitStackPush", "src/jit.cc:JitStackPop", "src/instrument.cc:InsertSnippet"]}
{"id": "C125", "title": "What the tool prints is shown in the colours and bases which the messages ask for", "statement": "On a terminal every message of the tool is shown in its colour up to the end of its line, no control sequence is visible, numbers are decimal unless their message asks for hexadecimal ones, the report at the end is always as its statements say, and the terminal is left with its default look. Without --vv only one line and the report appear.", "quantifier": "for all flags, code objects, functions and what becomes of them, counters, names and percentages without escape characters", "why_tests_cant": "what a message looks like depends on which messages were printed before it in the same run; a test sees the output of a few binaries, and the wrong base shows only for counts above nine in later objects", "anchors": ["src/utils.cc:StdOut", "src/utils.cc:Endl", "src/instrument.cc:Instrument", "src/pass_manager.h:RunPass"]}
{"id": "C126", "title": "At every moment an instrumented program may do what the original may, and nothing else", "statement": "Whatever an instrumented program in memory has done on a processor with store buffers, the original can have done the same so that from there on exactly the same is possible, however long and for all threads, and the other way round; the two are weakly bisimilar. Instrumentation thus neither takes decisions for the program earlier or later than it takes them itself, nor lets it get stuck.", "quantifier": "for all programs, threads, interleavings and delays of writes, all snippets asmjit can encode, any address of their bytes, with and without AVX-512", "why_tests_cant": "that something is still possible at a moment, or no longer, cannot be observed; a test observes one future of each moment", "anchors": ["src/jit.cc:JitStackPush", "src/jit.cc:JitStackPop", "src/instrument.cc:InsertSnippet"]}
{"id": "C127", "title": "Snippets come to an end whatever other threads and buffers do", "statement": "A thread which has come to a snippet gets behind it after a number of its own instructions which is bounded when it comes there, however other threads and all store buffers interfere in the meantime, and at every moment before the end there is a next instruction which it can execute.", "quantifier": "for all programs, threads, interleavings and delays of writes, all snippets asmjit can encode, any address of their bytes, with and without AVX-512", "why_tests_cant": "a test cannot wait for ever, nor try all interleavings; the loop which looks for a return address depends on memory which others could change", "anchors": ["src/jit.cc:JitStackPush", "src/jit.cc:JitStackPop", "src/instrument.cc:InsertSnippet"]}
{"id": "C128", "title": "How many instructions snippets execute", "statement": "Recording a return address takes 5 instructions and 2 for each register saved, however much is recorded; a check takes 6, 2 for each register saved and 8 for each address it throws away; keeping the address in a register takes 2 at the entry and 3 at the exit. All snippets which a thread runs take together at most 17 instructions for each push, 2 for each check or register entry and 5 for each register exit, besides 8 for each address recorded at the beginning, so that unwinding never makes the whole slower than in proportion to the number of calls.", "quantifier": "for all snippets emitted with scratch registers known, all recorded addresses, all states and all sequences of snippets and changes by the program", "why_tests_cant": "a test measures a few programs; the cost of a check is unbounded, and that it is paid for by earlier pushes is a statement about all runs", "anchors": ["src/jit.cc:SaveRa", "src/jit.cc:ValidateRa", "src/jit.cc:JitRegisterPush", "src/jit.cc:JitRegisterPop"]}
{"id": "C129", "title": "What the control flow printer says is what the analysis records", "statement": "The separate program cf prints, for the first function called foo, at most one line for each edge and then the number of blocks. It names exactly the functions which the call graph analysis takes for callees; it announces unknown control flow and library calls whenever the analysis records some, and indirect control flow only when the analysis does. Not conversely: indirect tail calls and jumps to library functions are announced too, and direct tail jumps not at all.", "quantifier": "for all code objects, functions and edges", "why_tests_cant": "a test prints a few functions; that two programs sort edges alike is a statement about all combinations of edge kind, target and linkage", "anchors": ["src/cf.cc:main", "src/passes.h:UpdateCallees"]}
{"id": "C130", "title": "Instrumented programs run forever as the originals do, and stop where they stop", "statement": "An original can go on forever with some endless sequence of actions of its threads if and only if the instrumented program in memory can, with the same memory outside of the private areas and the same points of the program after every action. What the original can refuse to do after some actions the instrumented program can refuse after them, and conversely; in particular the two stop for good after the same actions. This stays true if threads may wait at any unlocked points.", "quantifier": "for all programs, threads, endless executions and sets of refused actions, on processors with store buffers, under the conditions of C126", "why_tests_cant": "no test runs forever, and no finite observation tells that a program has stopped for good", "anchors": ["src/jit.cc:JitStackPush", "src/jit.cc:JitStackPop", "src/instrument.cc:InsertSnippet"]}
{"id": "C131", "title": "Instrumented programs are not silent forever", "statement": "In every endless execution of an instrumented program in memory, with finitely many threads, the outside world sees an action of the program again and again: neither snippets nor bytes on their way from store buffers to memory can keep it busy forever. If nothing is seen any more, each thread makes only finitely many steps, also if there are infinitely many threads.", "quantifier": "for all programs, threads and endless executions on processors with store buffers, under the conditions of C127, if behind snippets there are not other snippets forever", "why_tests_cant": "a program which hangs cannot be told from one which is slow, and no test covers all endless interleavings", "anchors": ["src/jit.cc:JitStackPush", "src/jit.cc:JitStackPop", "src/instrument.cc:InsertSnippet"]}
