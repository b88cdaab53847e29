{"claims": [
{"property": "C01", "status": "proved", "theorems": ["C01_push_records"], "note": "Execution of every emitted push shape on the machine model; non-overlap of the areas involved is a hypothesis."},
{"property": "C02", "status": "proved", "theorems": ["C02_push_transparent"], "note": "Registers, flags, rsp and memory outside the footprint."},
{"property": "C03", "status": "proved", "theorems": ["C03_check_accepts"], "note": "Any depth, by induction on the entries above the match."},
{"property": "C04", "status": "proved", "theorems": ["C04_check_traps", "C04_zero_accepted"], "note": "The second theorem shows why the zero address is excluded: it matches the guard."},
{"property": "C05", "status": "proved", "theorems": ["C05_check_transparent"], "note": "Any number of loop iterations."},
{"property": "C07", "status": "partial", "theorems": ["C07_guard_confusion", "C07_recorded_but_traps", "C07_guard_distinguished_partial"], "note": "The claim is false of the code; negation proved in general and with a concrete state. Partial: entries with non-zero low half."},
{"property": "C08", "status": "partial", "theorems": ["C08_frame_check_traps", "C08_honest_return_traps", "C08_frame_push_partial"], "note": "The claim is false of the code; the negation holds for every honest call and return. Partial: the push records the frame and is transparent."},
{"property": "C09", "status": "partial", "theorems": ["C09_small_dead_sets_undefined", "C09_scratch_selection_partial", "C09_saves", "C09_refuted_unknown_name"], "note": "False for one to three dead registers and for register names the tool does not know (both proved; the dead register pass produces no such name, C74_dead); partial for none or at least four. C09_saves holds for every set."},
{"property": "C10", "status": "proved", "theorems": ["C10_register_frame_round_trip"], "note": "Body is an arbitrary relation respecting the frame register and the scratch word."},
{"property": "C11", "status": "proved", "theorems": ["C11_register_frame_detects", "C11_recorded_accepted"], "note": ""},
{"property": "C12", "status": "proved", "theorems": ["C12_empty_emits_nothing", "C12_only_save_push", "C12_only_save_pop", "C12_only_save_register"], "note": ""},
{"property": "C13", "status": "proved", "theorems": ["C13_default_scratch_distinct", "C13_move_scratch_distinct"], "note": ""},
{"property": "C06", "status": "proved", "theorems": ["C06_no_false_alarm", "C06_return_passes", "C06_leaf_return_passes"], "note": "Machine-level executions of one thread of any length: work, calls, returns, register-frame functions, unwinding of any number of frames."},
{"property": "C14", "status": "proved", "theorems": ["C14_init_empty", "C14_init_failure", "C14_empty_check_traps", "C14_generated"], "note": ""},
{"property": "C16", "status": "proved", "theorems": ["C16_depth_bound", "C16_capacity_usable", "C16_writes_inside", "C16_overflow", "C16_generated_overflow"], "note": ""},
{"property": "C17", "status": "partial", "theorems": ["C17_runtime_layout", "C17_generated_guard_lost", "C17_generated_accepts_unrecorded"], "note": "Proved for the preloaded runtime; the claim is false for the generator's layout (negation proved for every region and register value)."},
{"property": "C18", "status": "partial", "theorems": ["C18_safe_reaches_no_reason_partial", "C18_visited_first_partial", "C18_refuted", "C49_untrusted_never_safe"], "note": "False in general for recursive call graphs (witness proved); proved without recursion and for functions visited first."},
{"property": "C19", "status": "proved", "theorems": ["C19_unsafe_has_reason"], "note": ""},
{"property": "C20", "status": "partial", "theorems": ["C20_exception_free_partial", "C20_addresses", "C20_refuted", "C20_marked_blocks"], "note": "False in general: an already visited callee is judged by its write flag (witness proved). Proved along call paths through non-writing functions."},
{"property": "C31", "status": "proved", "theorems": ["C31_calls_recorded", "C31_each_call", "C31_tail_jump", "cgRun_total"], "note": ""},
{"property": "C49", "status": "proved", "theorems": ["C49_trusted_iff", "C49_untrusted_never_safe"], "note": ""},
{"property": "C21", "status": "proved", "theorems": ["C21_exact", "C21_never_safe"], "note": ""},
{"property": "C22", "status": "partial", "theorems": ["C22_stack_write_partial", "C22_refuted", "C22_refuted_unaligned"], "note": "False: the width of a write is ignored (two witnesses). Proved for writes that end at or below the slot."},
{"property": "C23", "status": "partial", "theorems": ["C23_unused_partial", "C23_refuted", "C23_skipped"], "note": "False for the byte registers sil, dil, bpl, spl (witness). Proved when instructions use none of these names."},
{"property": "C24", "status": "partial", "theorems": ["C24_table_partial", "C24_refuted", "C24_numbered", "C24_numbered_two", "C24_idempotent", "C24_no_merge", "C24_throws"], "note": "False for sil, dil, bpl, spl; complete table otherwise."},
{"property": "C25", "status": "proved", "theorems": ["C25_dead_registers"], "note": "Instructions are arbitrary state transformers that respect their declared read and write sets."},
{"property": "C26", "status": "partial", "theorems": ["C26_entry_position", "C26_entry_return_address_partial", "C26_refuted", "C26_entry_best"], "note": "False after a 16-bit push (witness). Proved for 8-byte pushes."},
{"property": "C27", "status": "partial", "theorems": ["C27_exit_position", "C27_exit_return_address_partial", "C27_refuted", "C27_exit_best"], "note": "False after a pop into rsp (witness). Proved otherwise."},
{"property": "C28", "status": "partial", "theorems": ["C28_moved_check_partial", "C28_two_dead", "C28_refuted"], "note": "False with one dead register (witness runs the emitted code). Proved when the rest of the block does not use the save area; with two dead registers there is none."},
{"property": "C29", "status": "proved", "theorems": ["C29_positive", "C29_complete", "C29_bound", "C29_total", "C29_indirect_lost"], "note": ""},
{"property": "C30", "status": "proved", "theorems": ["C30_unsafe_call_blocks", "C30_unmarked_calls_safe"], "note": ""},
{"property": "C51", "status": "proved", "theorems": ["C51_unsafe_blocks", "C51_function", "C51_safe_no_dangerous", "C51_writes"], "note": ""},
{"property": "C52", "status": "proved", "theorems": ["C52_rsp", "C52_other_register", "C52_recorded", "C52_moves_down"], "note": ""},
{"property": "C53", "status": "proved", "theorems": ["C53_moved_push"], "note": ""},
{"property": "C32", "status": "proved", "theorems": ["C32_project", "C32_lift"], "note": "Including exception edges. PatchAPI's cloneBlock is trusted to copy the outgoing edges."},
{"property": "C33", "status": "partial", "theorems": ["C33_lowering_partial", "C33_refuted", "C33_lowering_total", "C54_no_assertions"], "note": "False with conditional tail calls: two checks for one push (witness). Proved when exits have no successors in the function and along walks without exceptions."},
{"property": "C34", "status": "proved", "theorems": ["C34_safe_paths_free"], "note": ""},
{"property": "C35", "status": "proved", "theorems": ["C35_coalescing"], "note": "Also along exception edges."},
{"property": "C36", "status": "partial", "theorems": ["C36_refuted", "C36_exceptions_partial"], "note": "The claim is false (two witnesses). Partial: checks come last and after a push; pushes precede unsafe blocks if exceptions come after an unsafe block."},
{"property": "C37", "status": "partial", "theorems": ["C37_red_zone_partial", "C37_register_frame", "C37_refuted"], "note": "False with --disable_reg_save_opt (witness runs the emitted code); proved without it on the machine model."},
{"property": "C54", "status": "proved", "theorems": ["C54_no_assertions"], "note": ""},
{"property": "C38", "status": "partial", "theorems": ["C38_fast_path_partial", "C38_refuted", "C38_branches"], "note": "Proved for functions whose exits have no successors; false when an exit block with a conditional tail call also leads to the fast exit (listed twice)."},
{"property": "C39", "status": "partial", "theorems": ["C39_nonreturning_partial", "C39_refuted"], "note": "Proved as an equivalence for lowering, register frame, entry/exit and full; false on the fast path."},
{"property": "C40", "status": "proved", "theorems": ["C40_strategy", "C40_totals", "C40_order"], "note": ""},
{"property": "C41", "status": "partial", "theorems": ["C41_skip_list_partial", "C41_refuted"], "note": "False with --disable_sfe and in full mode."},
{"property": "C42", "status": "partial", "theorems": ["C42_scope_partial", "C42_each", "C42_refuted"], "note": "Scope characterised exactly; that the main program is always in scope is false."},
{"property": "C43", "status": "partial", "theorems": ["C43_write_statistics_partial", "C43_counts", "C43_stops", "C43_refuted"], "note": "Proved with assertions compiled in; false without."},
{"property": "C44", "status": "partial", "theorems": ["C44_safe_statistics_partial", "C44_refuted"], "note": "Proved for distinct names; false with equal names."},
{"property": "C55", "status": "partial", "theorems": ["C55_clobber_partial", "C55_refuted"], "note": "False with --optimize_regs at pushes away from the entry (witness runs the emitted code); proved without."},
{"property": "C56", "status": "proved", "theorems": ["C56_push_before_check"], "note": ""},
{"property": "C57", "status": "partial", "theorems": ["C57_check_sets_zf", "C57_register_check_sets_zf", "C57_refuted", "C28_moved_check_partial", "cmpFlags_bits", "addFlags_bits", "parity_ones"], "note": "False: every check that falls through sets ZF (proved for all states); with a conditional tail call the program's jump changes. What holds: behind a moved check nothing reads the flags before they are overwritten or the function returns (part of C28)."},
{"property": "C48", "status": "proved", "theorems": ["C48_split", "C48_file_name"], "note": ""},
{"property": "C50", "status": "proved", "theorems": ["C50_compressed", "C50_faithful", "C50_windowed", "C50_windowed_faithful", "C50_windowed_not_idempotent", "C50_ratio", "stretch_unique", "C50_share"], "note": "Idempotence is claimed for the first variant only; the windowed one is proved not idempotent."},
{"property": "C45", "status": "partial", "theorems": ["C45_protected_partial", "C45_refuted_recursion", "C45_refuted_tail", "C45_refuted_fastPath", "C45_refuted_section", "C45_refuted_skip"], "note": "Proved from the analyses and plans, for programs in which functions judged unsafe are called only by such functions (this holds without recursion), tail jumps are covered, no call is made right before a fast path check, and functions which are left out (other sections, skip list) are harmless or do not return; each of the conditions is necessary (a witness with a complete attack for each). Events are whole blocks; exceptions are in C86, jumps with unknown targets in C97."},
{"property": "C58", "status": "partial", "theorems": ["C58_safe_calls_safe_partial", "C58_refuted"], "note": "Proved for direct calls; false for tail jumps."},
{"property": "C59", "status": "partial", "theorems": ["C59_danger_between_partial", "C59_refuted"], "note": "Proved under the conditions of C45_protected_partial; false on the fast path when a slow exit block ends in a call."},
{"property": "C15", "status": "proved", "theorems": ["C15_own_history", "C15_snippet_as_alone", "C15_finishes_as_alone", "C15_killed_as_alone", "C15_progress", "C15_solo"], "note": "Any number of threads, any interleaving of single instructions. Conditions of the steps: the allocator returns memory no other thread owns, nobody else writes a thread's region, nor (during a snippet) its return address and the bytes it uses below the stack pointer; a checked return address is not 0 (C04)."},
{"property": "C46", "status": "partial", "theorems": ["C46_upper_bound", "C46_commutative", "C46_associative", "C46_idempotent", "C46_least", "C46_undefined_iff", "C46_refuted", "C46_comparison_finer"], "note": "Proved wherever the merge is defined; exactly where it is undefined is characterised, and there the claim is false (witness)."},
{"property": "C47", "status": "proved", "theorems": ["C47_never", "C47_shapes", "C47_contexts_exist"], "note": ""},
{"property": "C60", "status": "partial", "theorems": ["C60_terminates_partial", "C60_no_endless_run_partial", "C60_unique", "C60_refuted"], "note": "False for an entry block of one instruction with an edge to itself (witness); proved for all other functions, with a unique outcome."},
{"property": "C61", "status": "partial", "theorems": ["C61_writes_partial", "C61_refuted_idle", "C61_refuted_frame", "C61_refuted_stale"], "note": "False in general (three witnesses: a first instruction without effect on the facts, addresses in the frame merged with allocated ones, frame words overwritten by other instructions); otherwise the base comes from the allocator or is a value the analysis has no location for, in all runs."},
{"property": "C62", "status": "partial", "theorems": ["C62_marks", "C62_unknown_writes", "C62_rest", "C62_reported", "C62_keeps_partial", "C62_refuted"], "note": "What is reported, unmarked and kept is characterised exactly; that an unmarked block has nothing dangerous is false: a block which also writes the return address slot is unmarked (witness)."},
{"property": "C63", "status": "partial", "theorems": ["C63_total", "C63_partition", "C63_root", "C63_components", "C63_edges", "C63_returns", "C63_refuted"], "note": "Proved for disjoint outer loops, as Dyninst reports them for reducible graphs; for overlapping loops a block is in two components (witness)."},
{"property": "C64", "status": "proved", "theorems": ["C64_all_once", "C64_order", "C64_covers"], "note": "C64_covers is for disjoint outer loops; the other two hold for any graph."},
{"property": "C65", "status": "partial", "theorems": ["C65_heights", "C65_edge_push", "C65_block_push_partial", "C65_check_partial"], "note": "Heights and edge pushes without conditions on the block; moved pushes and checks for blocks whose pushes and pops are 64 bits wide and which do not pop into rsp (C26_refuted, C27_refuted). The stack analysis itself is Dyninst's and is assumed right."},
{"property": "C66", "status": "partial", "theorems": ["C66_push_partial", "C66_check_partial", "C66_fast_path_heights"], "note": "Same conditions on the instructions of the block as C65."},
{"property": "C67", "status": "proved", "theorems": ["C67_lowered_kinds", "C67_plan_kinds"], "note": ""},
{"property": "C68", "status": "proved", "theorems": ["C68_flags"], "note": ""},
{"property": "C69", "status": "proved", "theorems": ["C69_lowering_helps"], "note": ""},
{"property": "C70", "status": "partial", "theorems": ["C70_finishes", "C70_shape", "C70_writes_partial"], "note": "Under the conditions shown necessary in C60 and C61; C70_shape discharges the hypotheses of C61 about the order of components."},
{"property": "C71", "status": "partial", "theorems": ["C71_called_once", "C71_empty_at_call", "C71_disjoint", "C71_region", "C71_refuted"], "note": "False when malloc fails: the library stores through NULL and the process dies (witness). The rest is proved for all schedules; proper use of memory by the program is a condition of its steps."},
{"property": "C72", "status": "partial", "theorems": ["C72_kept_partial", "C72_refuted_witness", "C72_refuted_all", "C72_limit", "C72_never_freed"], "note": "False: nothing is ever released (witness, and a lower bound for every execution). What holds is that memory in use stays allocated."},
{"property": "C73", "status": "partial", "theorems": ["C73_call_result_partial", "C73_call_rest", "C73_refuted", "C73_first_operand", "C73_second_operand", "C73_second_operand_lost", "C73_init", "C73_preds", "C73_merges_checked", "C73_moves_checked"], "note": "False of operator new, calloc and realloc (witness _Znwm), and of a second operand behind a scaled index without base; otherwise characterised exactly."},
{"property": "C74", "status": "partial", "theorems": ["C74_dead", "C74_filtered", "C74_exit_partial", "C74_refuted_overlap", "C74_push_partial", "C74_refuted_few", "C74_refuted_jump"], "note": "The sets are exact; using them is wrong with one to three dead registers (past the end of the set), at exits that jump through a register (the query is about the end of the block, the check runs before the jump) and for exit blocks with one end. Proved for pushes with none or at least four dead registers."},
{"property": "C75", "status": "partial", "theorems": ["C75_file_partial", "C75_skips_partial", "C75_refuted_stops", "C75_refuted_big", "C75_refuted", "C75_negative", "C75_refuted_instrumented", "getHex_iff", "C75_reads", "C75_skips"], "note": "What is read is characterised for every file (C75_reads); it is not always what is written. Proved for every file of addresses separated by white space. Reading stops silently at the first word that is no number or does not fit, so that all addresses behind a comment are lost and these functions instrumented; a minus sign is accepted."},
{"property": "C76", "status": "partial", "theorems": ["C76_unambiguous", "C76_written_partial", "C76_refuted_names", "C76_last", "C76_refuted_objects", "C76_result", "C76_refuted_result", "C76_listed_partial"], "note": "Proved for one object and names without line breaks. Each object truncates the file, so only the last one analysed is in it; the number recorded for a pass is a single character."},
{"property": "C77", "status": "partial", "theorems": ["C77_list", "C77_ratio", "C77_protected_partial", "C77_refuted", "C77_refuted_ratio"], "note": "The list is exactly the functions whose first block touches the FS segment. This is not the functions with a stack cookie: thread-local variables count, cookies set up later do not; the share is 0/0 if no function is looked at."},
{"property": "C78", "status": "partial", "theorems": ["C78_parallel", "C78_results", "C78_keys", "C78_table", "C78_finite", "C78_progress_partial", "C78_refuted_stuck", "C78_refuted_verdict"], "note": "Proved over all interleavings for outputs that fit into a pipe. A benchmark that writes more than a pipe takes blocks, since output is read only after the process has ended, and the script waits for ever; a successful run that mentions errors counts as failed."},
{"property": "C79", "status": "partial", "theorems": ["C79_machine_partial", "Sound.machine", "XInv.step", "C79_refuted"], "note": "Composes the correctness of the emitted snippets (C01, C03, C04, C10, C11) with that of the instrumentation plan (C45) in one machine: shadow region, stored return addresses and frame registers are words of the state. Same conditions as C45, without which it is false. That a snippet addresses the right stack word is a condition of the steps; it is C65 and C66."},
{"property": "C80", "status": "partial", "theorems": ["C80_pushes", "C80_checks", "C80_planned_partial", "EStep.refines", "snippets_fit", "C80_refuted"], "note": "Removes the condition of C79 that snippets address the right word: they are the emitted code of the plan. Assumed of the binary: instructions do to the stack pointer what the scans of C26-C28 take for granted, Dyninst's stack heights are right, heights agree along paths. Whole programs need the conditions of C45; refuted for recursion."},
{"property": "C81", "status": "partial", "theorems": ["C81_analysis", "C81_instrument_partial", "C81_builds_partial", "C81_refuted"], "note": "That the analysis succeeds is characterised exactly. Instrumentation needs heights at joins: refuted for a block in which paths of different height meet, where the assertion at instrument.cc:503 fails (without assertions the height is taken to be 0)."},
{"property": "C82", "status": "proved", "theorems": ["C82_stats", "C82_bars", "C82_rows", "C82_no_rows", "plotOverheads_spec", "overhead_pos"], "note": ""},
{"property": "C83", "status": "partial", "theorems": ["C83_sorted_partial", "C83_ends", "C83_refuted"], "note": "Termination is characterised exactly. Refuted in general: with as many benchmarks as names but one name missing the script loops for ever."},
{"property": "C84", "status": "partial", "theorems": ["C84_init", "C84_push", "C84_pop", "C84_loop_partial", "C84_refuted", "C84_refuted_conditional", "C84_conditional_flags", "C84_refuted_conditional_loop"], "note": "Refuted for the two benchmarks without context saving: they change rax and rcx without telling the compiler. The pop benchmarks never compare with an entry: the area pointer is compared, since the additions are of 0. BM_ShadowStackPushConditional never pushes."},
{"property": "C85", "status": "partial", "theorems": ["C85_parse", "C85_sound", "C85_complaints", "C85_short", "C85_text", "C85_no_text", "C85_failed", "C85_address", "C85_refuted_section", "C85_refuted_unreadable", "C85_refuted_jmp", "C85_refuted_newline"], "note": "Soundness holds for readable disassemblies. Refuted: a file which objdump cannot read is silently good; newer versions of objdump print jmp, which is always complained about; the last digit of an address without a newline is lost."},
{"property": "C86", "status": "partial", "theorems": ["C86_protected_partial", "C86_refuted_unwinding", "C86_refuted_stale", "C86_refuted_handlers", "C86_refuted_alarm"], "note": "Under the conditions of C45, if the handlers of lowered functions only clean up. Refuted in general, each with a complete execution: the unwinder takes return addresses from the stack unchecked; entries of abandoned activations stay acceptable; a lowered function which catches an exception returns unchecked; an address with low half zero left behind kills the program."},
{"property": "C87", "status": "partial", "theorems": ["C87_planned_partial", "C87_refuted_unwinding", "C87_refuted_stale"], "note": "Under the conditions of C80 and C86. Refuted in general by complete machine executions: the unwinder follows an overwritten return address; a check accepts the address of an abandoned activation."},
{"property": "C88", "status": "partial", "theorems": ["C88_threads_partial", "C88_footprint", "C88_cross", "C88_refuted_cross"], "note": "Under the conditions of C87, if no thread writes to the shadow region or the stored return addresses of another one. Refuted in general by a complete machine execution, and for every program with a dangerous moment: a thread overwrites the return address of a call in another thread which was not recorded (its function is safe) or has been checked."},
{"property": "C89", "status": "partial", "theorems": ["C89_protected_partial", "C89_exceptions_partial", "C89_machine_partial", "C89_threads_partial", "C89_snippets", "C89_refuted_section", "C89_refuted_jump"], "note": "For programs whose tail jumps have known targets and whose functions outside .text are harmless or do not return (no condition on recursion, unlike C45); for threads as in C88. Both conditions are necessary: complete attacks on a function of another section and on a function which ends by jumping to an unknown place, after its check."},
{"property": "C90", "status": "partial", "theorems": ["C90_protected_partial", "C90_done", "C90_object", "C90_light", "C90_full"], "note": "What is treated and how (C90_object, C90_light, C90_full) is proved without further conditions if BPatch shows each function in one module; protection needs the conditions of C45 and C89."},
{"property": "C91", "status": "partial", "theorems": ["C91_counts", "C91_functions", "C91_writes", "C91_lowering", "C91_sites", "C91_dead_sites", "C91_output", "C91_full", "C91_refuted_nan", "C91_refuted_safe"], "note": "Counts proved exact for every run; the percentages are exact and add up if and only if their denominator is not 0. Refuted otherwise: without treated functions, and for writes always in full mode, the percentages are not numbers; functions of the skip list are reported as safe."},
{"property": "C92", "status": "partial", "theorems": ["C92_protected_partial", "C92_threads_partial", "C92_signals_partial", "C92_run_partial", "C92_full_partial", "C92_refuted"], "note": "Proved by composing the invariants of the code objects; if names of trusted library functions are bound to harmless functions, which full mode does not need. Refuted otherwise: malloc, strlen, strcmp and operator new[] are trusted by name, also if an instrumented library defines them and writes unsafely."},
{"property": "C93", "status": "partial", "theorems": ["C93_stack_partial", "C93_full", "C93_register", "C93_first", "C93_pop_low", "C93_pops", "C93_slips", "C93_refuted", "C93_attack"], "note": "Holds in full mode, for register frames and for every check that restores something after the byte. Refuted with default flags: a check moved in front of 'pop r14; pop r15; ret' saves nothing, the byte is its last, and 62 41 5E 41 5F C3 is vmaxss on AVX-512 processors; execution goes on behind the return. C93_pops says exactly which pairs do this, C93_attack runs a complete attack."},
{"property": "C94", "status": "partial", "theorems": ["C94_full_partial", "C94_protected_partial", "C94_unmoved_partial", "EProtected.onAvx", "goodProg_bare", "C94_refuted", "C94_never_stops"], "note": "Holds in full mode, in light mode with --disable_reg_save_opt and without --optimize_regs, and in general if the bytes behind the checks which restore nothing make no instruction. Refuted with default flags: a program which meets all conditions of C80 has a run in which its moved check is passed over with the return address overwritten. All inherit the conditions of C80 or C89."},
{"property": "C95", "status": "partial", "theorems": ["C95_mode", "C95_treated", "C95_rest", "C95_written", "C95_protected_partial", "C95_threat_model", "C95_dry_run", "C95_refuted_argument", "C95_refuted_written", "C95_refuted_skip_list", "C95_refuted_nothing"], "note": "Mode, scope, output name and the meaning of undocumented flag values are proved; protection under the conditions of C90. Refuted: without an argument or with a file that cannot be opened the behaviour is undefined; a failed write and an unreadable skip list go unnoticed; with '.so' in its path the main program is left as it was. What gflags does is taken as given."},
{"property": "C96", "status": "partial", "theorems": ["C96_assumed_only", "C96_assumed", "C96_child", "C96_self", "C96_unknown", "C96_verdict", "C96_never_assumed", "C96_passed_on", "C96_refuted_tests", "C96_refuted_recursion"], "note": "Exact meaning of every mark. The marks passed on from callees only without recursion; with recursion a function calling an unsafe one can stay unmarked (C96_refuted_recursion). The comment at pass_manager.h:167-176 and the expectations of tests/analysis_test.cc about assume_unsafe and self_writes are refuted."},
{"property": "C97", "status": "partial", "theorems": ["C97_protected_partial", "C97_exceptions_partial", "C97_threads_partial", "C97_full_partial", "C97_disabled", "C97_refuted_lowering", "C97_refuted_fast"], "note": "Light mode under the conditions of C45, C86 and C88, full mode under those of C89. Functions with such jumps must be neither lowered nor given a fast path (as with --disable_lowering, C97_disabled); otherwise complete attacks exist. Jumps to the entry of the function or to code which was not parsed are not covered."},
{"property": "C98", "status": "proved", "theorems": ["C98_vector", "C98_unlisted", "C98_encodings", "arithRow_lines"], "note": "Relates the byte tests of C93 to tables and bit fields as the manual prints them. Opcodes other than 0F 58-5F and memory operands are left open (C98_unlisted says exactly which bytes)."},
{"property": "C99", "status": "partial", "theorems": ["C99_no_false_alarm_partial", "C99_recorded_partial", "C99_push_transparent_partial", "C99_check_partial", "C99_register_partial", "C99_embeds", "C99_any_handler", "C99_any_jump", "C99_nesting", "C99_refuted_push", "C99_refuted_guard", "C99_refuted_jump", "C99_refuted_register"], "note": "False as stated: a handler between the two stores of a push makes an honest return trap (C99_refuted_push). Proved for handlers which leave the region alone in that window, with any nesting; handlers may also be left by siglongjmp at any moment, except that one which jumps back into a function whose check is in progress gets it killed (C99_refuted_jump). Every execution without signals is one of these executions, and every honest execution is a handler. That a check lets pass only recorded addresses needs in addition that no handler with snippets runs while the pointer is at the guard (C99_refuted_guard). Register frames lose the frame register when a handler has one too (C99_refuted_register). Frame mode is not treated (it fails without signals, C08)."},
{"property": "C100", "status": "partial", "theorems": ["C100_signals_partial", "C100_cut", "C100_refuted_safe", "C100_refuted_early", "C100_refuted_register"], "note": "False as stated. A handler that may overwrite return addresses interrupts a function considered safe, which returns unchecked (C100_refuted_safe); or a function before its push, which then records what was written (C100_refuted_early); or it overwrites the saved value of a frame register (C100_refuted_register). Proved for such handlers between push and check of functions without frame register, and for honest handlers anywhere, within snippets also (there as in C99)."},
{"property": "C101", "status": "partial", "theorems": ["C101_main_partial", "C101_threads_partial", "C101_signals_partial", "C100_refuted_safe", "C92_refuted", "C88_refuted_cross"], "note": "Joins C95, C90, C92, C88 and C100 for light and full mode: no condition refers to the plan, only to the input of the tool (SuitableMachine) and to the bindings of names. False without these conditions (C100_refuted_safe, C92_refuted and the refutations of C45, C80, C87 and C88). That Dyninst writes what it is asked to write is not modelled."},
{"property": "C102", "status": "partial", "theorems": ["C102_signals_partial", "C102_run_partial", "C102_main_partial", "C102_footprint", "C102_footprint_handler", "C92_crews_partial", "C88_refuted_cross", "C100_refuted_safe"], "note": "Holds under the conditions of C88_threads_partial and C100_signals_partial, and is false without them (C88_refuted_cross, C100_refuted_safe): the step of another thread is for this thread a signal that leaves its region and its bytes alone."},
{"property": "C103", "status": "proved", "theorems": ["C103_same_behaviour", "C103_example", "C103_refuted_flags", "C103_refuted_red_zone", "C103_refuted_moved"], "note": "Simulation in both directions between the original and the instrumented program. The conditions are needed: programs which look at the flags behind a check or at bytes below the stack pointer behave differently, and programs which change their return addresses on purpose are killed."},
{"property": "C104", "status": "partial", "theorems": ["C104_same_behaviour_partial", "C104_unwinding_partial", "C104_example", "C104_example_unwinding", "C104_refuted_nonreturning"], "note": "Pushes and checks of the plans come in order in every activation, so the book of C103 can be kept. False of functions of the fast path with a call in a checked block: the check before a call that does not return looks at the wrong place and kills the program. With unwinding no return address ends in 32 zero bits, functions with frame registers have no handlers, and there must be room for what abandoned activations leave on the shadow stack."},
{"property": "C105", "status": "partial", "theorems": ["C105_same_behaviour_partial", "C105_unwinding_partial", "C105_example", "C105_example_unwinding", "C105_refuted_conditional"], "note": "From C103, as C104, without hypotheses on the analyses. False of functions with conditional tail jumps: the check before the jump is executed also if it is not taken, and the second check kills the program. With unwinding no return address ends in 32 zero bits, and there must be room for what abandoned activations leave on the shadow stack."},
{"property": "C106", "status": "partial", "theorems": ["C106_respects", "C106_light_partial", "C106_full_partial", "C106_example"], "note": "C106_respects, that a program cannot see what is not live, holds without reservation; the combinations with C104 and C105 inherit their hypotheses."},
{"property": "C107", "status": "partial", "theorems": ["C107_optimized_partial", "C107_refuted", "C107_example"], "note": "False of pushes at the beginning of a slow path: a register which is dead at the entry may have been set before the push, and the program finds something else in it. True if all pushes stand at the entries of functions."},
{"property": "C108", "status": "proved", "theorems": ["C108_same_behaviour", "C109_example", "pair_runs"], "note": "The original passes a snippet at the moment at which the instrumented program enters it. Threads which do not exist yet wait at a control point, and their shadow regions are initialised (C14, C71)."},
{"property": "C109", "status": "partial", "theorems": ["C109_light_partial", "C109_unwinding_partial", "C109_full_partial", "C109_full_unwinding_partial", "C109_example", "C109_refuted_nonreturning"], "note": "From C108, as C104 and C105 from C103, with their hypotheses and refutations; every thread is a program as in C104 for which the steps of the others are changes of memory."},
{"property": "C110", "status": "partial", "theorems": ["C110_respects", "C110_light_partial", "C110_full_partial", "C110_example"], "note": "C110_respects holds without reservation; the combinations with C109 inherit its hypotheses."},
{"property": "C111", "status": "partial", "theorems": ["C111_light_partial", "C111_skipped_partial", "C111_full_refuted", "C111_refuted", "C111_ifuncs", "C111_ifuncs_ignored", "C111_push_stores", "C111_example"], "note": "False of the code: the addresses of resolvers are collected and never used. Holds in light mode if the functions which run early are judged safe, given the conditions of C45, and in any mode if they and all that they call are skipped."},
{"property": "C112", "status": "proved", "theorems": ["C112_no_false_alarm", "C112_return_passes", "C112_detects", "C112_example", "C112_refuted_returning"], "note": "The condition on children of vfork is that of POSIX; without it the parent is killed (C112_refuted_returning)."},
{"property": "C113", "status": "partial", "theorems": ["C113_no_false_alarm_partial", "C113_refuted", "C113_example"], "note": "False in general. Holds if flows are left, unless for ever, only when they have no protected call in progress."},
{"property": "C114", "status": "proved", "theorems": ["C114_machine_code", "C114_push", "C114_check", "C114_registerPush", "C114_registerPop", "C114_slips", "C114_attack"], "note": "The encodings and their decoding are part of the model. C114_slips and C114_attack show what happens on processors with AVX-512 where the condition does not hold (C93)."},
{"property": "C115", "status": "proved", "theorems": ["C115_stackPush", "C115_stackPop", "C115_registerPush", "C115_registerPop", "C115_needed"], "note": ""},
{"property": "C116", "status": "partial", "theorems": ["C116_check_partial", "C116_push_partial", "C116_run_partial", "C116_return_partial", "C116_registerPush_partial", "C116_registerPop_partial", "C116_leafReturn_partial", "C116_window_check", "C116_window_push", "C116_refuted_check", "C116_refuted_push", "C116_refuted_register"], "note": "False of the code: every push and every check has a window (C116_window_push, C116_window_check), and C116_refuted_check executes the default check while a return address blinks. Proved for writers who miss the windows, for frames on the shadow stack and in registers."},
{"property": "C117", "status": "proved", "theorems": ["C117_same_behaviour", "C117_same_runs", "C117_image", "C117_example"], "note": "C117_light_partial, C117_light_unwinding_partial and C117_full_partial put it together with C104 and C105, and have their conditions."},
{"property": "C118", "status": "proved", "theorems": ["C118_same_behaviour", "C118_same_runs", "C118_example", "rec_undefined"], "note": "C118_light_partial, C118_unwinding_partial, C118_full_partial and C118_full_unwinding_partial put it together with C109, and have its conditions. Each machine instruction of a thread is one step: no weak memory (C124 has it)."},
{"property": "C119", "status": "partial", "theorems": ["C119_bytes", "C119_refuted_avx", "C119_run_partial", "C119_main_partial", "C119_footprint", "C119_spares", "C119_example"], "note": "C119_bytes holds for every program that is protected with lists of instructions. Missing: on processors with AVX-512 it needs that the embedded byte is undefined, and C119_refuted_avx shows that it is false otherwise. C119_run_partial and C119_main_partial have the conditions of C101. Each machine instruction of a thread is one step: no weak memory (C124 has it). Signal handlers are not in this model."},
{"property": "C120", "status": "partial", "theorems": ["C120_bytes", "C120_poised", "C120_push_places", "C120_run_partial", "C120_main_partial", "C120_footprint", "C120_spares", "C120_example"], "note": "C120_bytes holds for every program that is protected with lists of instructions. Missing: on processors with AVX-512 it needs that the embedded byte is undefined (false otherwise, C119_refuted_avx); C120_run_partial and C120_main_partial have the conditions of C102. Each machine instruction is one step: no weak memory."},
{"property": "C121", "status": "partial", "theorems": ["C121_weak_partial", "C92_weak_partial", "C121_run_partial", "C121_main_partial", "C121_direct", "C121_x86_writes", "C121_x86_passes", "C121_footprint", "C121_areas", "C121_areas_safe", "C121_areas_example", "C121_example"], "note": "C121_direct shows that C120's processes are those with one memory. Missing: the conditions of C102 and, on processors with AVX-512, that of C120. An instruction that reads and writes does so in one step."},
{"property": "C122", "status": "partial", "theorems": ["C122_genuine_partial", "C122_result", "C122_text", "C122_meaning", "C122_blocked", "C122_locked", "C122_refuted_umask", "C122_refuted_sticky", "C122_refuted_full", "C122_refuted_twice"], "note": "Holds if the umask keeps others from writing, /tmp is sticky, writes succeed and the same user runs the tool only once at a time. False otherwise: C122_refuted_umask (any code of others is compiled in), C122_refuted_sticky, C122_refuted_full and C122_refuted_twice (a library without the initialiser). C122_blocked: another user who owns the name keeps everybody from making a library. No other file calls Codegen()."},
{"property": "C123", "status": "partial", "theorems": ["C123_same_behaviour", "C123_respects", "C123_light_partial", "C123_unwinding_partial", "C123_full_partial", "C123_full_unwinding_partial", "C123_example", "note_waits"], "note": "C123_same_behaviour has no conditions on plans; the versions for plans have those of C109 and its refutations. Threads must neither read nor write each other's areas (shadow region, return addresses, stack below the stack pointer): a stack byte handed to other threads must not be in the area. That whatever can happen next in one can happen next in the other is not claimed, as a locked instruction has to wait for more writes."},
{"property": "C124", "status": "proved", "theorems": ["C124_same_behaviour", "C124_same_runs", "Seated.stores", "C124_example"], "note": "C124_light_partial, C124_unwinding_partial, C124_full_partial and C124_full_unwinding_partial put it together with C123, and have its conditions. Where a snippet's instruction may write is what the instruction decoded at rip stores to."},
{"property": "C125", "status": "partial", "theorems": ["C125_exact", "C125_report", "C125_quiet", "C125_decimal_partial", "C125_refuted_decimal", "C125_example"], "note": "C125_exact says in which base each number is printed. std::hex at instrument.cc:746 and 765 stays in force on std::cout, so the counts of the analysis of a later code object are hexadecimal (C125_refuted_decimal); they are decimal if no object is analysed after one with a lowered function, in particular without --vv."},
{"property": "C126", "status": "proved", "theorems": ["C126_bisimilar", "C126_futures", "C126_lists", "C126_example"], "note": "Under the conditions of C123. C126_light_partial, C126_unwinding_partial, C126_full_partial and C126_full_unwinding_partial are about the binaries which the tool writes, and have the conditions of the corresponding parts of C123. Bisimilarity does not count silent steps; that there cannot be infinitely many is C127."},
{"property": "C127", "status": "proved", "theorems": ["C127_ends", "C127_example"], "note": "Under the conditions of C123. C127_light_partial, C127_unwinding_partial, C127_full_partial and C127_full_unwinding_partial are about the binaries which the tool writes, and have the conditions of the corresponding parts of C123."},
{"property": "C128", "status": "proved", "theorems": ["C128_push", "C128_check", "C128_alarm", "C128_register", "C128_fallback", "C128_most", "C128_total", "C128_tight", "C128_example"], "note": "Without --validate_frame and --dry_run, as C01. Instructions are counted, not time."},
{"property": "C129", "status": "partial", "theorems": ["C129_calls", "C129_unknown", "C129_plt_partial", "C129_indirect", "C129_lines", "C129_run", "C129_example", "C129_refuted_agree"], "note": "The converse for unknown control flow and library calls is false (C129_refuted_agree)."},
{"property": "C130", "status": "proved", "theorems": ["C130_forever", "C130_refuses", "C130_complete", "C130_await", "C130_example"], "note": "Under the conditions of C126, which C126_light_partial, C126_unwinding_partial, C126_full_partial and C126_full_unwinding_partial establish for the binaries which the tool writes. Endless executions which do nothing that the outside world sees are not related."},
{"property": "C131", "status": "proved", "theorems": ["C131_rests", "C131_heard", "C131_endless", "C131_example"], "note": "Under the conditions of C127, and if chains of snippets, one directly behind the other, are finite (CoreGuest.Chains)."}
]}
