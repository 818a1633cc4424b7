{
 "claims": [
  {
   "property": "C01",
   "status": "proved",
   "theorems": [
    "Ccml.Props.C01_load_save",
    "Ccml.Props.C01_save_injective",
    "Ccml.Props.C01_long_text_not_loadable",
    "Ccml.Props.C01_nul_text_shortened"
   ],
   "note": "Round trip for every program whose texts fit the format; texts of 256 bytes or more and texts with NUL bytes are shown not to survive."
  },
  {
   "property": "C02",
   "status": "proved",
   "theorems": [
    "Ccml.Props.C02_truncated_refused"
   ],
   "note": ""
  },
  {
   "property": "C03",
   "status": "proved",
   "theorems": [
    "Ccml.Props.C03_emit_width",
    "Ccml.Props.C03_every_opcode_emitted",
    "Ccml.Props.C03_disasm_reads_emitted",
    "Ccml.Props.C03_encoding_unambiguous",
    "Ccml.Props.C03_machine_fetch"
   ],
   "note": "Encoding, disassembler and machine fetch."
  },
  {
   "property": "C04",
   "status": "proved",
   "theorems": [
    "Ccml.Props.C04_dump_lists_code",
    "Ccml.Props.C04_code_determines_instructions"
   ],
   "note": ""
  },
  {
   "property": "C05",
   "status": "proved",
   "theorems": [
    "Ccml.Props.C05_fixup_frame",
    "Ccml.Props.C05_fixup_out_of_range",
    "Ccml.Props.C05_fixup_patches_operand",
    "Ccml.Props.C05_fixup_patches_target"
   ],
   "note": ""
  },
  {
   "property": "C06",
   "status": "partial",
   "theorems": [
    "Ccml.Props.C06_lexing_stays_inside_partial",
    "Ccml.Props.C06_comment_overruns"
   ],
   "note": "Violated by the code for texts that end inside a comment (C06_comment_overruns); numbers beyond 32 bits overflow. All other texts proved."
  },
  {
   "property": "C07",
   "status": "proved",
   "theorems": [
    "Ccml.Props.C07_one_eof"
   ],
   "note": ""
  },
  {
   "property": "C08",
   "status": "proved",
   "theorems": [
    "Ccml.Props.C08_token_lines",
    "Ccml.Props.C08_nothing_skipped"
   ],
   "note": "For texts without NUL bytes; a NUL ends the text."
  },
  {
   "property": "C09",
   "status": "proved",
   "theorems": [
    "Ccml.Props.C09_lex_written",
    "Ccml.Props.C09_lex_print"
   ],
   "note": ""
  },
  {
   "property": "C10",
   "status": "proved",
   "theorems": [
    "Ccml.Props.C10_words"
   ],
   "note": ""
  },
  {
   "property": "C11",
   "status": "proved",
   "theorems": [
    "Ccml.Props.C11_lines",
    "Ccml.Props.C11_file_lines",
    "Ccml.Props.C11_lines_concat"
   ],
   "note": ""
  },
  {
   "property": "C12",
   "status": "partial",
   "theorems": [
    "Ccml.Props.C12_load_partial",
    "Ccml.Props.C12_load_once",
    "Ccml.Props.C12_prefix_skipped",
    "Ccml.Props.C12_after_failure"
   ],
   "note": "Violated by the code: extensions of a loaded path and everything after a failed load are skipped (C12_prefix_skipped, C12_after_failure). Otherwise proved."
  },
  {
   "property": "C13",
   "status": "proved",
   "theorems": [
    "Ccml.Props.C13_expression",
    "Ccml.Props.C13_print_parse",
    "Ccml.Props.C13_two_operators",
    "Ccml.Props.C13_unambiguous"
   ],
   "note": ""
  },
  {
   "property": "C14",
   "status": "partial",
   "theorems": [
    "Ccml.Props.C14_minus_left",
    "Ccml.Props.C14_not_left",
    "Ccml.Props.C14_violated",
    "Ccml.Props.C14_minus_last_partial",
    "Ccml.Props.C14_not_last_partial",
    "Ccml.Props.C14_parenthesised_partial"
   ],
   "note": "Violated by the code: a unary operator before the first operand of a binary operator is applied elsewhere (C14_minus_left, C14_not_left, C14_violated). Proved for operators whose operand ends the expression or that stand in parentheses with their operand."
  },
  {
   "property": "C15",
   "status": "partial",
   "theorems": [
    "Ccml.Props.C15_parsing_ends",
    "Ccml.Props.C15_program_or_error",
    "Ccml.Props.C15_source_text",
    "Ccml.Props.C15_import_aborts"
   ],
   "note": "Violated by the code only where an import is not followed by a string: building the message fails an assertion (C15_import_aborts). Everything else proved."
  },
  {
   "property": "C16",
   "status": "proved",
   "theorems": [
    "Ccml.Props.C16_parse_grammar",
    "Ccml.Props.C16_parse_print",
    "Ccml.Props.C16_text",
    "Ccml.Props.C16_unambiguous"
   ],
   "note": ""
  },
  {
   "property": "C17",
   "status": "partial",
   "theorems": [
    "Ccml.Props.C17_checked",
    "Ccml.Props.C17_globals",
    "Ccml.Props.C17_partial",
    "Ccml.Props.C17_violated"
   ],
   "note": "Proved: the pass accepts exactly the programs whose visible names (local variables in scope, arguments, the function, everything declared before it) are different at every point, and all globals differ. Violated for globals declared after a function, which its local variables may shadow (C17_violated)."
  },
  {
   "property": "C18",
   "status": "partial",
   "theorems": [
    "Ccml.Props.C18_partial",
    "Ccml.Props.C18_layout_partial",
    "Ccml.Props.C18_violated",
    "Ccml.Props.C18_leaks"
   ],
   "note": "Proved for programs in which no else branch mentions a name its then branch declares: annotation equals lexical scoping for every memory layout and the result does not depend on the layout. Violated otherwise: the branches of an if share one scope (C18_violated, C18_leaks)."
  },
  {
   "property": "C19",
   "status": "proved",
   "theorems": [
    "Ccml.Props.C19_checked",
    "Ccml.Props.C19_accepted",
    "Ccml.Props.C19_compiled"
   ],
   "note": "number-of-arguments pass accepts exactly the programs whose direct calls match; carried over to the optimised tree that code is generated from"
  },
  {
   "property": "C20",
   "status": "proved",
   "theorems": [
    "Ccml.Props.C20_assigned",
    "Ccml.Props.C20_read",
    "Ccml.Props.C20_read_init",
    "Ccml.Props.C20_compiled",
    "Ccml.Props.C20_compiled_init",
    "Ccml.Props.C20_declared",
    "Ccml.Props.C20_computed",
    "Ccml.Props.C20_calls",
    "Ccml.Props.C20_start",
    "Ccml.Props.C20_use"
   ],
   "note": "no assignment to a constant passes; no constant is left in the translated tree; the values of the uses are those of the declared literals, for calls and start-up (the optimiser can still spoil a shared literal, see C23_violated)"
  },
  {
   "property": "C21",
   "status": "proved",
   "theorems": [
    "Ccml.Props.C21_known",
    "Ccml.Props.C21_tree",
    "Ccml.Props.C21_stmt",
    "Ccml.Props.C21_block",
    "Ccml.Props.C21_calls",
    "Ccml.Props.C21_start"
   ],
   "note": "On the evaluator of the annotated tree, which the machine follows by C27."
  },
  {
   "property": "C22",
   "status": "proved",
   "theorems": [
    "Ccml.Props.C22_block",
    "Ccml.Props.C22_calls",
    "Ccml.Props.C22_start"
   ],
   "note": "On the evaluator of the annotated tree, which the machine follows by C27."
  },
  {
   "property": "C23",
   "status": "partial",
   "theorems": [
    "Ccml.Props.C23_calls_partial",
    "Ccml.Props.C23_start_partial",
    "Ccml.Props.C23_optimise_partial",
    "Ccml.Props.C23_machine_partial",
    "Ccml.Props.C23_violated"
   ],
   "note": "Violated by the code when a constant with value 0 is a condition and used elsewhere (C23_violated). Proved for all other programs, also together with the machine."
  },
  {
   "property": "C24",
   "status": "proved",
   "theorems": [
    "Ccml.Props.C24_locals",
    "Ccml.Props.C24_globals",
    "Ccml.Props.C24_places",
    "Ccml.Props.C24_operands"
   ],
   "note": "Distinct locals, arguments and globals of a function never share a stack slot or a global index, and every operand the code generator emits names the slot of the declared variable."
  },
  {
   "property": "C25",
   "status": "partial",
   "theorems": [
    "Ccml.Props.C25_balanced_partial",
    "Ccml.Props.C25_violated"
   ],
   "note": "Proved for programs without binary `not` and without fixed-count built-ins used as values; violated by both (C25_violated, C56_violated)."
  },
  {
   "property": "C26",
   "status": "proved",
   "theorems": [
    "Ccml.Props.C26_operands"
   ],
   "note": "Also covers the operands of calls, globals and strings."
  },
  {
   "property": "C27",
   "status": "proved",
   "theorems": [
    "Ccml.Props.C27_value",
    "Ccml.Props.C27_error",
    "Ccml.Props.C27_fault",
    "Ccml.Props.C27_long",
    "Ccml.Props.C27_diverges",
    "Ccml.Props.C27_complete"
   ],
   "note": "For calls through call_once on the reference memory; C45 carries runs over to the collected heap. The meaning is that of the annotated tree after the optimiser (C21-C23 relate it to the tree before); reading a variable that was never assigned, or calling a host function with the wrong number of arguments, is excluded (undef)."
  },
  {
   "property": "C28",
   "status": "proved",
   "theorems": [
    "Ccml.Props.C28_call",
    "Ccml.Props.C28_return",
    "Ccml.Props.C28_return_underflow",
    "Ccml.Props.C28_read_variable",
    "Ccml.Props.C28_write_variable",
    "Ccml.Props.C28_bad_variable",
    "Ccml.Props.C28_compiled_call"
   ],
   "note": "Machine level for every instruction involved, and whole calls of compiled functions."
  },
  {
   "property": "C29",
   "status": "proved",
   "theorems": [
    "Ccml.Props.C29_integer_operators",
    "Ccml.Props.C29_negation"
   ],
   "note": ""
  },
  {
   "property": "C30",
   "status": "partial",
   "theorems": [
    "Ccml.Props.C30_unsupported_operands_partial",
    "Ccml.Props.C30_textless_add_aborts",
    "Ccml.Props.C30_call_none_aborts",
    "Ccml.Props.C30_declined",
    "Ccml.Props.C30_negation",
    "Ccml.Props.C30_call_partial"
   ],
   "note": "Violated by the code: text plus array or system call, and an indirect call of none, fail an assertion (C30_textless_add_aborts, C30_call_none_aborts). All other cases proved."
  },
  {
   "property": "C31",
   "status": "proved",
   "theorems": [
    "Ccml.Props.C31_read",
    "Ccml.Props.C31_write",
    "Ccml.Props.C31_bad_object_or_index",
    "Ccml.Props.C31_read_string"
   ],
   "note": ""
  },
  {
   "property": "C32",
   "status": "partial",
   "theorems": [
    "Ccml.Props.C32_integer_text",
    "Ccml.Props.C32_concat_partial",
    "Ccml.Props.C32_long_text_cut"
   ],
   "note": "Violated by the code for numbers with more than 15 characters (C32_long_text_cut). All other cases proved."
  },
  {
   "property": "C33",
   "status": "proved",
   "theorems": [
    "Ccml.Props.C33_logical_operators",
    "Ccml.Props.C33_branches"
   ],
   "note": ""
  },
  {
   "property": "C34",
   "status": "proved",
   "theorems": [
    "Ccml.Props.C34_equals",
    "Ccml.Props.C34_partial_equivalence",
    "Ccml.Props.C34_no_nul"
   ],
   "note": ""
  },
  {
   "property": "C35",
   "status": "proved",
   "theorems": [
    "Ccml.Props.C35_quantum",
    "Ccml.Props.C35_split"
   ],
   "note": ""
  },
  {
   "property": "C36",
   "status": "proved",
   "theorems": [
    "Ccml.Props.C36_dropped",
    "Ccml.Props.C36_resume_finished",
    "Ccml.Props.C36_step_finished",
    "Ccml.Props.C36_error_finishes",
    "Ccml.Props.C36_builtins"
   ],
   "note": ""
  },
  {
   "property": "C37",
   "status": "proved",
   "theorems": [
    "Ccml.Props.C37_pass",
    "Ccml.Props.C37_runs"
   ],
   "note": "For hosts that leave other threads alone and memories that do not move values."
  },
  {
   "property": "C38",
   "status": "proved",
   "theorems": [
    "Ccml.Props.C38_sleeps",
    "Ccml.Props.C38_wakes",
    "Ccml.Props.C38_negative_never_runs",
    "Ccml.Props.C38_wait"
   ],
   "note": "For n >= 0; violated for negative n (C38_negative_never_runs)."
  },
  {
   "property": "C39",
   "status": "proved",
   "theorems": [
    "Ccml.Props.C39_instruction_isolated",
    "Ccml.Props.C39_builtins_isolated",
    "Ccml.Props.C39_resume_isolated",
    "Ccml.Props.C39_resume_untouched"
   ],
   "note": ""
  },
  {
   "property": "C40",
   "status": "proved",
   "theorems": [
    "Ccml.Props.C40_breakpoint_set",
    "Ccml.Props.C40_line_table",
    "Ccml.Props.C40_halts_on_entry",
    "Ccml.Props.C40_halts_only_on_entry",
    "Ccml.Props.C40_resume"
   ],
   "note": ""
  },
  {
   "property": "C41",
   "status": "proved",
   "theorems": [
    "Ccml.Props.C41_collect_preserves",
    "Ccml.Props.C41_collect_failures"
   ],
   "note": "For collections that do not run out of to-space or native stack; the failures are shown to be only those two."
  },
  {
   "property": "C42",
   "status": "proved",
   "theorems": [
    "Ccml.Props.C42_no_dangling"
   ],
   "note": ""
  },
  {
   "property": "C43",
   "status": "partial",
   "theorems": [
    "Ccml.Props.C43_cycle_diverges",
    "Ccml.Props.C43_acyclic_terminates_partial"
   ],
   "note": "Violated by the code: with an array that contains itself the tracer recurses without end (C43_cycle_diverges). Termination proved for acyclic reachable values."
  },
  {
   "property": "C44",
   "status": "proved",
   "theorems": [
    "Ccml.Props.C44_disjoint",
    "Ccml.Props.C44_fails_cleanly",
    "Ccml.Props.C44_huge_size_wraps",
    "Ccml.Props.C44_values_disjoint"
   ],
   "note": "For request sizes below 2^63; larger ones wrap around (C44_huge_size_wraps)."
  },
  {
   "property": "C45",
   "status": "proved",
   "theorems": [
    "Ccml.Props.C45_collections_unobservable",
    "Ccml.Props.C45_schedules_agree",
    "Ccml.Props.C45_heap_sound"
   ],
   "note": "Up to running out of memory or native stack; host functions are the built-ins, program and host strings without NUL."
  },
  {
   "property": "C46",
   "status": "proved",
   "theorems": [
    "Ccml.Props.C46_results",
    "Ccml.Props.C46_new_array"
   ],
   "note": ""
  },
  {
   "property": "C47",
   "status": "proved",
   "theorems": [
    "Ccml.Props.C47_builtins_bound",
    "Ccml.Props.C47_resolve"
   ],
   "note": ""
  },
  {
   "property": "C48",
   "status": "proved",
   "theorems": [
    "Ccml.Props.C48_new_thread",
    "Ccml.Props.C48_wrong_count",
    "Ccml.Props.C48_host_new_thread"
   ],
   "note": ""
  },
  {
   "property": "C49",
   "status": "proved",
   "theorems": [
    "Ccml.Props.C49_value",
    "Ccml.Props.C49_error",
    "Ccml.Props.C49_long",
    "Ccml.Props.C49_complete",
    "Ccml.Props.C49_count",
    "Ccml.Props.C49_present",
    "Ccml.Props.C49_literals"
   ],
   "note": "On the reference memory, for hosts that leave other threads alone. call_init runs one quantum of 8192 instructions only: C49_long shows that it may return before the initialisers have ended."
  },
  {
   "property": "C50",
   "status": "partial",
   "theorems": [
    "Ccml.Props.C50_own_slot_partial",
    "Ccml.Props.C50_violated"
   ],
   "note": "Violated by the code when slots are shared (C50_violated) or a declaration is repeated. Proved for the first use of an unshared slot."
  },
  {
   "property": "C51",
   "status": "partial",
   "theorems": [
    "Ccml.Props.C51_will_branch_partial",
    "Ccml.Props.C51_will_branch_wrong",
    "Ccml.Props.C51_will_branch_can",
    "Ccml.Props.C51_has_operand_partial",
    "Ccml.Props.C51_has_operand_wrong",
    "Ccml.Props.C51_mnemonics_indexed",
    "Ccml.Props.C51_operator_classes"
   ],
   "note": "Violated by the code for ICALL, NEW_ARY, NEW_FUNC, NEW_SCALL (operands) and ICALL (branching); all other opcodes proved."
  },
  {
   "property": "C52",
   "status": "proved",
   "theorems": [
    "Ccml.Props.C52_generated",
    "Ccml.Props.C52_find_by_name",
    "Ccml.Props.C52_find_by_pc"
   ],
   "note": ""
  },
  {
   "property": "C53",
   "status": "proved",
   "theorems": [
    "Ccml.Props.C53_rounds",
    "Ccml.Props.C53_after"
   ],
   "note": "On the evaluator of the annotated tree, which the machine follows by C27."
  },
  {
   "property": "C54",
   "status": "partial",
   "theorems": [
    "Ccml.Props.C54_import_relative_partial",
    "Ccml.Props.C54_import_from_bare_file"
   ],
   "note": "Violated by the code for a path without directory (C54_import_from_bare_file). Otherwise proved."
  },
  {
   "property": "C55",
   "status": "proved",
   "theorems": [
    "Ccml.Props.C55_operand",
    "Ccml.Props.C55_constants",
    "Ccml.Props.C55_pop",
    "Ccml.Props.C55_locals",
    "Ccml.Props.C55_globals",
    "Ccml.Props.C55_read_global",
    "Ccml.Props.C55_write_global",
    "Ccml.Props.C55_jump",
    "Ccml.Props.C55_host_call",
    "Ccml.Props.C55_indirect_host_call",
    "Ccml.Props.C55_indirect_call",
    "Ccml.Props.C55_length",
    "Ccml.Props.C55_no_member",
    "Ccml.Props.C55_array_literal"
   ],
   "note": ""
  },
  {
   "property": "C56",
   "status": "partial",
   "theorems": [
    "Ccml.Props.C56_steps_partial",
    "Ccml.Props.C56_sessions_partial",
    "Ccml.Props.C56_errors_partial",
    "Ccml.Props.C56_position_partial",
    "Ccml.Props.C56_heap_partial",
    "Ccml.Props.C56_violated",
    "Ccml.Props.C56_lost_slot"
   ],
   "note": "Proved for programs without binary `not` and without fixed-count built-ins used as values, which violate it (C56_violated). bad_getv/bad_setv cannot be excluded (C56_lost_slot)."
  },
  {
   "property": "C57",
   "status": "partial",
   "theorems": [
    "Ccml.Props.C57_value_partial",
    "Ccml.Props.C57_error_partial",
    "Ccml.Props.C57_fault_partial",
    "Ccml.Props.C57_long_partial",
    "Ccml.Props.C57_diverges_partial",
    "Ccml.Props.C57_complete_partial",
    "Ccml.Props.C57_start_partial",
    "Ccml.Props.C57_start_error_partial",
    "Ccml.Props.C57_machine_partial",
    "Ccml.Props.C57_one_meaning",
    "Ccml.Props.C57_any_bound"
   ],
   "note": "the two constructs for which C18 and C23 are violated are excluded; reading a variable before it is set has no meaning in the source evaluator (C50); call_init stops after 8192 instructions"
  },
  {
   "property": "C58",
   "status": "partial",
   "theorems": [
    "Ccml.Props.C58_reads",
    "Ccml.Props.C58_nothing",
    "Ccml.Props.C58_once",
    "Ccml.Props.C58_ends_partial",
    "Ccml.Props.C58_endless"
   ],
   "note": "a file that imports itself under another spelling of its path is read again and again (C58_endless); termination is proved if finitely many paths can be opened"
  },
  {
   "property": "C59",
   "status": "proved",
   "theorems": [
    "Ccml.Props.C59_strings"
   ],
   "note": "for programs whose declarations are not called @init, which C60_names shows of every program built from texts"
  },
  {
   "property": "C60",
   "status": "partial",
   "theorems": [
    "Ccml.Props.C60_names",
    "Ccml.Props.C60_clean",
    "Ccml.Props.C60_machine_partial",
    "Ccml.Props.C60_text_partial",
    "Ccml.Props.C60_count",
    "Ccml.Props.C60_limits"
   ],
   "note": "the two constructs for which C18 and C23 are violated are excluded; limits on declarations and variables hold for texts of together less than 2^31 bytes (C60_limits)"
  },
  {
   "property": "C61",
   "status": "partial",
   "theorems": [
    "Ccml.Props.C61_only_partial",
    "Ccml.Props.C61_exactly_partial",
    "Ccml.Props.C61_rejects_partial",
    "Ccml.Props.C61_text_partial",
    "Ccml.Props.C61_violated"
   ],
   "note": "Both directions for sources without unary operators; with them the parser accepts more than the grammar (C61_violated)."
  },
  {
   "property": "C62",
   "status": "partial",
   "theorems": [
    "Ccml.Props.C62_collector",
    "Ccml.Props.C62_value_partial",
    "Ccml.Props.C62_error_partial",
    "Ccml.Props.C62_complete_partial",
    "Ccml.Props.C62_fault_partial",
    "Ccml.Props.C62_source_partial",
    "Ccml.Props.C62_source_error_partial",
    "Ccml.Props.C62_start_error_partial",
    "Ccml.Props.C62_no_main",
    "Ccml.Props.C62_status_partial",
    "Ccml.Props.C62_unread",
    "Ccml.Props.C62_parameters",
    "Ccml.Props.C62_functions",
    "Ccml.Props.C62_printed"
   ],
   "note": "Programs without the constructs for which C18 and C23 are violated; initialisers that call_init gets through (8192 instructions, no wait). Violated: a path that begins with an earlier path is not read (C62_unread), main with parameters is undefined behaviour (C62_parameters)."
  },
  {
   "property": "C63",
   "status": "partial",
   "theorems": [
    "Ccml.Props.C63_history",
    "Ccml.Props.C63_injective",
    "Ccml.Props.C63_alive",
    "Ccml.Props.C63_rand",
    "Ccml.Props.C63_getc",
    "Ccml.Props.C63_getc_end",
    "Ccml.Props.C63_putc",
    "Ccml.Props.C63_puts",
    "Ccml.Props.C63_wrong_type",
    "Ccml.Props.C63_none",
    "Ccml.Props.C63_gets_partial",
    "Ccml.Props.C63_gets_long",
    "Ccml.Props.C63_gets_end",
    "Ccml.Props.C63_round_trip"
   ],
   "note": "Violated: gets at the end of input reads an uninitialised buffer (C63_gets_end), a line of 79 characters is followed by an empty one (C63_gets_long), none fails an assertion (C63_none). The rest is proved."
  },
  {
   "property": "C64",
   "status": "proved",
   "theorems": [
    "Ccml.Props.C64_period",
    "Ccml.Props.C64_orbit",
    "Ccml.Props.C64_even",
    "Ccml.Props.C64_draws"
   ],
   "note": "Period, orbit and the number of times each value is drawn, for the generator as called by the machine (C64_draws)."
  },
  {
   "property": "C65",
   "status": "partial",
   "theorems": [
    "Ccml.Props.C65_video",
    "Ccml.Props.C65_video_report",
    "Ccml.Props.C65_video_overflow",
    "Ccml.Props.C65_cls",
    "Ccml.Props.C65_setrgb",
    "Ccml.Props.C65_plot",
    "Ccml.Props.C65_circle_partial",
    "Ccml.Props.C65_circle_lopsided",
    "Ccml.Props.C65_line_partial",
    "Ccml.Props.C65_line_end",
    "Ccml.Props.C65_line_overflow",
    "Ccml.Props.C65_calls"
   ],
   "note": "Violated: sizes whose product overflows, lines with both sides over 32768 (undefined behaviour); discs lack their right edge (C65_circle_lopsided) and lines their end point (C65_line_end). Bounds of everything else and the sets painted are proved."
  },
  {
   "property": "C66",
   "status": "partial",
   "theorems": [
    "Ccml.Props.C66_flip_partial",
    "Ccml.Props.C66_flip_square",
    "Ccml.Props.C66_flip_tall"
   ],
   "note": "Violated by pictures higher than wide (C66_flip_tall) and, in part, wider than high; square ones are shown completely (C66_flip_square)."
  },
  {
   "property": "C67",
   "status": "partial",
   "theorems": [
    "Ccml.Props.C67_function",
    "Ccml.Props.C67_init",
    "Ccml.Props.C67_shown",
    "Ccml.Props.C67_error_pc",
    "Ccml.Props.C67_names",
    "Ccml.Props.C67_report_partial",
    "Ccml.Props.C67_wrong_line",
    "Ccml.Props.C67_constant_line",
    "Ccml.Props.C67_no_line",
    "Ccml.Props.C67_no_name"
   ],
   "note": "Which words the lines of instructions come from and that get_line shows the line holding that word is proved for all programs built from texts; the report of an error is proved to show the line behind the failing instruction, the intended statement is refuted."
  },
  {
   "property": "C68",
   "status": "proved",
   "theorems": [
    "Ccml.Props.C68_listing",
    "Ccml.Props.C68_code_lines",
    "Ccml.Props.C68_listing_determines_code",
    "Ccml.Props.C68_built"
   ],
   "note": ""
  },
  {
   "property": "C69",
   "status": "partial",
   "theorems": [
    "Ccml.Props.C69_gc_partial",
    "Ccml.Props.C69_dump_partial",
    "Ccml.Props.C69_dangling",
    "Ccml.Props.C69_dump_shows",
    "Ccml.Props.C69_shown_partial"
   ],
   "note": "Violated: gc deletes array literals and assignments to members that are still used, and dump then reads them (C69_dangling). Proved: exactly which nodes are kept, and what is written for programs without them."
  },
  {
   "property": "C70",
   "status": "partial",
   "theorems": [
    "Ccml.Props.C70_usage",
    "Ccml.Props.C70_unreadable",
    "Ccml.Props.C70_files_partial",
    "Ccml.Props.C70_tree_partial",
    "Ccml.Props.C70_overflow",
    "Ccml.Props.C70_option_first"
   ],
   "note": "Violated: files are named after an option that comes first (C70_option_first), long names overrun a buffer (C70_overflow), the tree is read after nodes were deleted (C70_tree_partial). Proved for all other command lines."
  },
  {
   "property": "C71",
   "status": "proved",
   "theorems": [
    "Ccml.Props.C71_same_result",
    "Ccml.Props.C71_instructions"
   ],
   "note": "The thread is started when all earlier threads have ended; the call starts none itself (it also comes back with `new_thread` not bound). The count of instructions is for calls that do not wait."
  },
  {
   "property": "C72",
   "status": "partial",
   "theorems": [
    "Ccml.Props.C72_restart_partial",
    "Ccml.Props.C72_no_globals",
    "Ccml.Props.C72_stale_globals"
   ],
   "note": "proved for sessions that begin with call_init and for machines without globals; for other first calls reset leaves dangling globals (C72_stale_globals)"
  },
  {
   "property": "C73",
   "status": "proved",
   "theorems": [
    "Ccml.Props.C73_rand",
    "Ccml.Props.C73_sleep",
    "Ccml.Props.C73_sleep_float",
    "Ccml.Props.C73_sleep_other",
    "Ccml.Props.C73_keydown"
   ],
   "note": "`Sdl.Fn.call`; the clock and the keyboard are parameters."
  },
  {
   "property": "C74",
   "status": "proved",
   "theorems": [
    "Ccml.Props.C74_language",
    "Ccml.Props.C74_rejects",
    "Ccml.Props.C74_text",
    "Ccml.Props.C74_joins",
    "Ccml.Props.C74_nested"
   ],
   "note": "Acceptance with unary operators; which tree is built for them is C14 and C61."
  },
  {
   "property": "C75",
   "status": "partial",
   "theorems": [
    "Ccml.Props.C75_asleep",
    "Ccml.Props.C75_awake",
    "Ccml.Props.C75_ends",
    "Ccml.Props.C75_never_ends",
    "Ccml.Props.C75_sleep",
    "Ccml.Props.C75_stops",
    "Ccml.Props.C75_sleep_partial",
    "Ccml.Props.C75_wraps",
    "Ccml.Props.C75_overwritten",
    "Ccml.Props.C75_exit",
    "Ccml.Props.C75_no_main",
    "Ccml.Props.C75_status_partial",
    "Ccml.Props.C75_collector",
    "Ccml.Props.C75_functions"
   ],
   "note": "violated: the loop does not end when the program is over (C75_never_ends), a failed program exits with 0 (C75_exit), sleeps end early at the wrap-around of the clock (C75_wraps) and by sleeps of other threads (C75_overwritten); proved otherwise"
  },
  {
   "property": "C76",
   "status": "proved",
   "theorems": [
    "Ccml.Props.C76_stacks",
    "Ccml.Props.C76_leftovers",
    "Ccml.Props.C76_new",
    "Ccml.Props.C76_reset",
    "Ccml.Props.C76_forgets",
    "Ccml.Props.C76_needed"
   ],
   "note": "A used compiler object after reset builds like a new one; leftovers on the parser stacks never matter."
  },
  {
   "property": "C77",
   "status": "proved",
   "theorems": [
    "Ccml.Props.C77_apart",
    "Ccml.Props.C77_float",
    "Ccml.Props.C77_cut"
   ],
   "note": "The shown text determines the value; texts with NUL are cut (C77_cut)."
  },
  {
   "property": "C78",
   "status": "proved",
   "theorems": [
    "Ccml.Props.C78_parses",
    "Ccml.Props.C78_exact",
    "Ccml.Props.C78_clean",
    "Ccml.Props.C78_text",
    "Ccml.Props.C78_unambiguous",
    "Ccml.Props.C78_documented",
    "Ccml.Props.C78_moves",
    "Ccml.Props.C78_theft"
   ],
   "note": "All accepted sources without a `not` behind an operand, trees included; C78_theft shows what is different there."
  },
  {
   "property": "C79",
   "status": "partial",
   "theorems": [
    "Ccml.Props.C79_value_partial",
    "Ccml.Props.C79_error_partial",
    "Ccml.Props.C79_fault_partial",
    "Ccml.Props.C79_diverges_partial",
    "Ccml.Props.C79_machine_partial",
    "Ccml.Props.C79_meaning"
   ],
   "note": "proved for programs without the constructs of C18 and C23 that start no threads and whose start-up call_init finishes; a wait for a negative number of passes is left open"
  },
  {
   "property": "C80",
   "status": "partial",
   "theorems": [
    "Ccml.Props.C80_frame_partial",
    "Ccml.Props.C80_machine_partial",
    "Ccml.Props.C80_meaning"
   ],
   "note": "proved for programs without the constructs of C18 and C23 that start no threads before the call looked at and whose start-up call_init finishes"
  },
  {
   "property": "C81",
   "status": "proved",
   "theorems": [
    "Ccml.Props.C81_driver",
    "Ccml.Props.C81_sdl",
    "Ccml.Props.C81_spacing",
    "Ccml.Props.C81_wordings"
   ],
   "note": "Builds of texts with the same words end alike (C81_spacing); texts that differ in blanks, comments and the case of keywords have the same words (C81_wordings); both drivers end with the same status and output on such files (C81_driver, C81_sdl)."
  },
  {
   "property": "C82",
   "status": "proved",
   "theorems": [
    "Ccml.Props.C82_resume",
    "Ccml.Props.C82_breakpoints_matter",
    "Ccml.Props.C82_machine",
    "Ccml.Props.C82_driver",
    "Ccml.Props.C82_sdl"
   ],
   "note": ""
  },
  {
   "property": "C83",
   "status": "proved",
   "theorems": [
    "Ccml.Props.C83_build",
    "Ccml.Props.C83_driver",
    "Ccml.Props.C83_sdl",
    "Ccml.Props.C83_followed"
   ],
   "note": ""
  },
  {
   "property": "C84",
   "status": "proved",
   "theorems": [
    "Ccml.Props.C84_word",
    "Ccml.Props.C84_build",
    "Ccml.Props.C84_complaint_word",
    "Ccml.Props.C84_complaint",
    "Ccml.Props.C84_status",
    "Ccml.Props.C84_status_sdl",
    "Ccml.Props.C84_nul"
   ],
   "note": "C84_nul: a NUL in a comment counts as the end of a line; the statement says so."
  }
 ]
}